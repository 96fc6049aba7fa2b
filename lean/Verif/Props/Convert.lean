import Verif.Model.Convert
import Verif.Props.Arrays
import Verif.Props.Weighted

/-!
# C81: entries that are not vertex numbers
-/

namespace CM

open Spec Sample

namespace CellArray

/-- Entry `a[i, j]` of an array with two dimensions. -/
def entry (a : CellArray) (i j : Nat) : Cell := a.data.getD (i * a.shape.getD 1 0 + j) (.int 0)

end CellArray

/-- The entry is the number `v`. -/
def Cell.Is (x : Cell) (v : Nat) : Prop :=
  match x with
  | .int z => z = v
  | .real (.fin q) => q = v
  | .real _ => False

/-- The entry is an integer of a type with 64 bits or less, signed or not. -/
def Cell.IsInt (x : Cell) : Prop := ∃ z : Int, x = .int z ∧ -2 ^ 63 ≤ z ∧ z < 2 ^ 64

theorem toU64_entry (odd : Dbl → Nat) (a : CellArray) (i j : Nat) {e c : Nat}
    (hs : a.shape = [e, c]) (hi : i < e) (hj : j < c) :
    (a.toU64 odd).entry i j = (a.entry i j).toU64 odd := by
  have hlt : i * c + j < a.data.length := by
    rw [a.full, hs]
    have : (i + 1) * c ≤ e * c := Nat.mul_le_mul_right c (by omega)
    rw [Nat.add_mul] at this
    simp only [List.prod_cons, List.prod_nil, Nat.mul_one]
    omega
  unfold NdArray.entry CellArray.entry CellArray.toU64
  simp only [hs, List.getD_cons_succ, List.getD_cons_zero]
  rw [List.getD_eq_getElem?_getD, List.getD_eq_getElem?_getD, List.getElem?_map,
    List.getElem?_eq_getElem hlt]
  rfl

/-- An integer is read as a vertex exactly if it is one. -/
theorem toU64_int {odd : Dbl → Nat} {x : Cell} (hx : x.IsInt) {n v : Nat} (hn : n < 2 ^ 31)
    (hv : v ≤ n) : x.toU64 odd = v ↔ x.Is v := by
  obtain ⟨z, rfl, h1, h2⟩ := hx
  unfold Cell.toU64 Cell.Is
  simp only
  omega

/-- A number with a fraction is read without it. -/
theorem toU64_real {odd : Dbl → Nat} {q : Rat} (h1 : -1 < q) (h2 : q < 2 ^ 64) {v : Nat}
    (hv : 1 ≤ v) : Cell.toU64 odd (.real (.fin q)) = v ↔ (v : Rat) ≤ q ∧ q < v + 1 := by
  unfold Cell.toU64
  simp only [h1, h2, and_self, if_true]
  have h3 : ⌊q⌋ = (v : Int) ↔ (v : Rat) ≤ q ∧ q < v + 1 := by
    rw [Int.floor_eq_iff]
    simp
  rw [← h3]
  omega

/-- The integers of an array are read as vertices exactly if they are. -/
theorem ints_vertices (odd : Dbl → Nat) (a : CellArray) {n e c : Nat} (hn : n < 2 ^ 31)
    (hs : a.shape = [e, c]) (hc : 2 ≤ c) (hz : ∀ x ∈ a.data, x.IsInt) :
    (∀ i j v, i < e → j < 2 → v ≤ n → ((a.toU64 odd).entry i j = v ↔ (a.entry i j).Is v)) ∧
    ((∀ i, i < e → (1 ≤ (a.toU64 odd).entry i 0 ∧ (a.toU64 odd).entry i 0 ≤ n) ∧
      1 ≤ (a.toU64 odd).entry i 1 ∧ (a.toU64 odd).entry i 1 ≤ n) ↔
      ∀ i j, i < e → j < 2 → ∃ v, 1 ≤ v ∧ v ≤ n ∧ (a.entry i j).Is v) := by
  have hint : ∀ i j, i < e → j < 2 → (a.entry i j).IsInt := by
    intro i j hi hj
    apply hz
    have hlt : i * c + j < a.data.length := by
      rw [a.full, hs]
      have : (i + 1) * c ≤ e * c := Nat.mul_le_mul_right c (by omega)
      rw [Nat.add_mul] at this
      simp only [List.prod_cons, List.prod_nil, Nat.mul_one]
      omega
    unfold CellArray.entry
    simp only [hs, List.getD_cons_succ, List.getD_cons_zero]
    rw [List.getD_eq_getElem?_getD, List.getElem?_eq_getElem hlt]
    exact List.getElem_mem hlt
  have hent : ∀ i j, i < e → j < 2 → (a.toU64 odd).entry i j = (a.entry i j).toU64 odd :=
    fun i j hi hj => toU64_entry odd a i j hs hi (by omega)
  have his : ∀ i j v, i < e → j < 2 → v ≤ n →
      ((a.toU64 odd).entry i j = v ↔ (a.entry i j).Is v) := by
    intro i j v hi hj hv
    rw [hent i j hi hj, toU64_int (hint i j hi hj) hn hv]
  have hall : (∀ i, i < e → (1 ≤ (a.toU64 odd).entry i 0 ∧ (a.toU64 odd).entry i 0 ≤ n) ∧
      1 ≤ (a.toU64 odd).entry i 1 ∧ (a.toU64 odd).entry i 1 ≤ n) ↔
      ∀ i j, i < e → j < 2 → ∃ v, 1 ≤ v ∧ v ≤ n ∧ (a.entry i j).Is v := by
    constructor
    · intro h i j hi hj
      have hj' : j = 0 ∨ j = 1 := by omega
      rcases hj' with rfl | rfl
      · exact ⟨_, (h i hi).1.1, (h i hi).1.2, (his i 0 _ hi hj (h i hi).1.2).1 rfl⟩
      · exact ⟨_, (h i hi).2.1, (h i hi).2.2, (his i 1 _ hi hj (h i hi).2.2).1 rfl⟩
    · intro h i hi
      obtain ⟨v, v1, v2, v3⟩ := h i 0 hi (by omega)
      obtain ⟨w, w1, w2, w3⟩ := h i 1 hi (by omega)
      rw [(his i 0 v hi (by omega) v2).2 v3, (his i 1 w hi (by omega) w2).2 w3]
      exact ⟨⟨v1, v2⟩, w1, w2⟩
  exact ⟨his, hall⟩

/-- **C81**, as far as it is true.  The full property: an array is refused if an entry in its
first two columns is not the number of a vertex.  Proved: for arrays of integers, signed or not,
with two or more columns; if all entries there are vertices the graph is the one they describe.
Missing, because false: arrays of floating-point numbers (`C81_refuted`), and arrays with fewer
columns (`C76_refuted`). -/
theorem C81_integers_partial (argLR : Bool) (cap : Nat) (odd : Dbl → Nat) (a : CellArray)
    {n e c : Nat} (hn : n < 2 ^ 31) (hs : a.shape = [e, c]) (hc : 2 ≤ c) (he : e < 2 ^ 31)
    (hz : ∀ x ∈ a.data, x.IsInt) :
    (¬ (∀ i j, i < e → j < 2 → ∃ v, 1 ≤ v ∧ v ≤ n ∧ (a.entry i j).Is v) →
      PyGraph.fromCells argLR cap odd a n = .error .throw) ∧
    ((∀ i j, i < e → j < 2 → ∃ v, 1 ≤ v ∧ v ≤ n ∧ (a.entry i j).Is v) →
      ∃ pg, PyGraph.fromCells argLR cap odd a n = .ok pg ∧ pg.nvert = n ∧
        ∀ v, 1 ≤ v → v ≤ n → ∃ l, pg.getVertexData v = .ok l ∧ l.Pairwise (· < ·) ∧
          ∀ u, u ∈ l ↔ u ≠ v ∧ u ≤ n ∧ ∃ i, i < e ∧
            (((a.entry i 0).Is u ∧ (a.entry i 1).Is v) ∨
              ((a.entry i 0).Is v ∧ (a.entry i 1).Is u))) := by
  obtain ⟨his, hall⟩ := ints_vertices odd a hn hs hc hz
  obtain ⟨b1, b2⟩ := (C76_array_partial argLR cap (a.toU64 odd) hn).2 e c hs hc he
  refine ⟨fun h => b1 fun h' => h (hall.1 h'), fun h => ?_⟩
  obtain ⟨pg, p1, p2, p3⟩ := b2 (hall.2 h)
  refine ⟨pg, p1, p2, fun v hv1 hv => ?_⟩
  obtain ⟨l, l1, l2, l3⟩ := p3 v hv
  refine ⟨l, l1, l2, fun u => ?_⟩
  rw [l3]
  constructor
  · rintro ⟨h0, i, hi, ⟨x, y⟩ | ⟨x, y⟩⟩
    · have hu : u ≤ n := by have := ((hall.2 h) i hi).1.2; omega
      exact ⟨h0, hu, i, hi, Or.inl ⟨(his i 0 u hi (by omega) hu).1 x, (his i 1 v hi (by omega) hv).1 y⟩⟩
    · have hu : u ≤ n := by have := ((hall.2 h) i hi).2.2; omega
      exact ⟨h0, hu, i, hi, Or.inr ⟨(his i 0 v hi (by omega) hv).1 x, (his i 1 u hi (by omega) hu).1 y⟩⟩
  · rintro ⟨h0, hu, i, hi, ⟨x, y⟩ | ⟨x, y⟩⟩
    · exact ⟨h0, i, hi, Or.inl ⟨(his i 0 u hi (by omega) hu).2 x, (his i 1 v hi (by omega) hv).2 y⟩⟩
    · exact ⟨h0, i, hi, Or.inr ⟨(his i 0 v hi (by omega) hv).2 x, (his i 1 u hi (by omega) hu).2 y⟩⟩

/-- **C81** for `NWGraph.from_edgelist`, as far as it is true: integers that are not vertices are
refused, and an array whose integers are the vertices in `rows` is loaded like `rows`. -/
theorem C81_weighted_integers_partial {R : Type} [Zero R] [Add R] [Sub R] [NatCast R]
    [LT R] [LE R] [DecidableLT R] [DecidableLE R] (argLR : Bool) (cap : Nat) (odd : Dbl → Nat)
    (a : CellArray) {n e c : Nat} (hn : n < 2 ^ 31) (hs : a.shape = [e, c]) (hc : 2 ≤ c)
    (he : e < 2 ^ 31) (hz : ∀ x ∈ a.data, x.IsInt) (wts : List R) :
    (¬ (∀ i j, i < e → j < 2 → ∃ v, 1 ≤ v ∧ v ≤ n ∧ (a.entry i j).Is v) →
      PyNW.fromCells argLR cap odd a n wts = .error .throw) ∧
    ∀ rows : List (Nat × Nat), rows.length = e → (∀ r ∈ rows, r.1 ≤ n ∧ r.2 ≤ n) →
      (∀ i, i < e → (a.entry i 0).Is (rows.getD i (0, 0)).1 ∧
        (a.entry i 1).Is (rows.getD i (0, 0)).2) →
      PyNW.fromCells argLR cap odd a n wts = PyNW.fromEdgelist argLR cap rows n wts := by
  obtain ⟨his, hall⟩ := ints_vertices odd a hn hs hc hz
  unfold PyNW.fromCells
  rw [(C76_weighted_array_partial argLR cap (a.toU64 odd) n wts).2 e c hs hc]
  have hp : (a.toU64 odd).pairs = (List.range e).map fun i =>
      ((a.toU64 odd).entry i 0, (a.toU64 odd).entry i 1) := by
    unfold NdArray.pairs
    simp [CellArray.toU64, hs]
  refine ⟨fun h => ?_, fun rows hr hle h => ?_⟩
  · refine (C34_from_edgelist argLR cap hn ?_).2.1 fun h' => h (hall.1 fun i hi =>
      h'.1 ((a.toU64 odd).entry i 0, (a.toU64 odd).entry i 1) ?_)
    · rw [hp]; simp; omega
    · rw [hp]; exact List.mem_map.2 ⟨i, List.mem_range.2 hi, rfl⟩
  · congr 1
    rw [hp]
    apply List.ext_getElem
    · simp [hr]
    · intro i h1 h2
      have hi : i < e := by omega
      have hg : rows.getD i (0, 0) = rows[i] := by
        rw [List.getD_eq_getElem?_getD, List.getElem?_eq_getElem h2]; rfl
      have hm := hle _ (List.getElem_mem h2)
      have hh := h i hi
      rw [hg] at hh
      rw [List.getElem_map, List.getElem_range]
      exact Prod.ext ((his i 0 _ hi (by omega) hm.1).2 hh.1) ((his i 1 _ hi (by omega) hm.2).2 hh.2)

/-- **C81** for floating-point numbers, as far as it is true: if all entries are between -1 and
`2^64`, an array is refused unless all numbers in its first two columns are at least 1 and less
than `n + 1`; otherwise they are rounded down.  The full property is false (`C81_refuted`). -/
theorem C81_reals_partial (argLR : Bool) (cap : Nat) (odd : Dbl → Nat) (a : CellArray)
    {n e c : Nat} (hn : n < 2 ^ 31) (hs : a.shape = [e, c]) (hc : 2 ≤ c) (he : e < 2 ^ 31)
    {q : Nat → Nat → Rat} (hq : ∀ i j, i < e → j < 2 → a.entry i j = .real (.fin (q i j)) ∧
      -1 < q i j ∧ q i j < 2 ^ 64) :
    (¬ (∀ i j, i < e → j < 2 → 1 ≤ q i j ∧ q i j < n + 1) →
      PyGraph.fromCells argLR cap odd a n = .error .throw) ∧
    ((∀ i j, i < e → j < 2 → 1 ≤ q i j ∧ q i j < n + 1) →
      ∃ pg, PyGraph.fromCells argLR cap odd a n = .ok pg ∧ pg.nvert = n ∧
        ∀ v, 1 ≤ v → v ≤ n → ∃ l, pg.getVertexData v = .ok l ∧ l.Pairwise (· < ·) ∧
          ∀ u, u ∈ l ↔ 1 ≤ u ∧ u ≠ v ∧ ∃ i, i < e ∧
            ((⌊q i 0⌋ = u ∧ ⌊q i 1⌋ = v) ∨ (⌊q i 0⌋ = v ∧ ⌊q i 1⌋ = u))) := by
  have hent : ∀ i j, i < e → j < 2 → (a.toU64 odd).entry i j = (⌊q i j⌋).toNat := by
    intro i j hi hj
    rw [toU64_entry odd a i j hs hi (by omega), (hq i j hi hj).1]
    unfold Cell.toU64
    simp only [(hq i j hi hj).2, and_self, if_true]
  have hfl : ∀ x : Rat, (1 ≤ x ∧ x < n + 1) ↔ (1 ≤ ⌊x⌋.toNat ∧ ⌊x⌋.toNat ≤ n) := by
    intro x
    have h1 : (1 : Rat) ≤ x ↔ (1 : Int) ≤ ⌊x⌋ := by rw [Int.le_floor]; simp
    have h2 : x < n + 1 ↔ ⌊x⌋ < (n : Int) + 1 := by rw [Int.floor_lt]; simp
    rw [h1, h2]
    omega
  have hall : (∀ i, i < e → (1 ≤ (a.toU64 odd).entry i 0 ∧ (a.toU64 odd).entry i 0 ≤ n) ∧
      1 ≤ (a.toU64 odd).entry i 1 ∧ (a.toU64 odd).entry i 1 ≤ n) ↔
      ∀ i j, i < e → j < 2 → 1 ≤ q i j ∧ q i j < n + 1 := by
    constructor
    · intro h i j hi hj
      have hh := h i hi
      rw [hent i 0 hi (by omega), hent i 1 hi (by omega)] at hh
      have hj' : j = 0 ∨ j = 1 := by omega
      rcases hj' with rfl | rfl
      · exact (hfl _).2 hh.1
      · exact (hfl _).2 hh.2
    · intro h i hi
      rw [hent i 0 hi (by omega), hent i 1 hi (by omega)]
      exact ⟨(hfl _).1 (h i 0 hi (by omega)), (hfl _).1 (h i 1 hi (by omega))⟩
  obtain ⟨b1, b2⟩ := (C76_array_partial argLR cap (a.toU64 odd) hn).2 e c hs hc he
  refine ⟨fun h => b1 fun h' => h (hall.1 h'), fun h => ?_⟩
  obtain ⟨pg, p1, p2, p3⟩ := b2 (hall.2 h)
  refine ⟨pg, p1, p2, fun v hv1 hv => ?_⟩
  obtain ⟨l, l1, l2, l3⟩ := p3 v hv
  refine ⟨l, l1, l2, fun u => ?_⟩
  rw [l3]
  constructor
  · rintro ⟨h0, i, hi, hxy⟩
    have hh := (hall.2 h) i hi
    rw [hent i 0 hi (by omega), hent i 1 hi (by omega)] at hxy hh
    exact ⟨by omega, h0, i, hi, by omega⟩
  · rintro ⟨hu, h0, i, hi, hxy⟩
    refine ⟨h0, i, hi, ?_⟩
    rw [hent i 0 hi (by omega), hent i 1 hi (by omega)]
    omega

/-- **C81** is false for floating-point numbers: `from_edgelist([[1.5, 2.9]], 2)` loads the edge
between the vertices 1 and 2, and what a NaN is taken for depends on the platform. -/
theorem C81_refuted (odd : Dbl → Nat) :
    (PyGraph.fromCells true 64 odd ⟨[1, 2], [.real (.fin (3 / 2)), .real (.fin (29 / 10))], rfl⟩ 2
      >>= fun pg => pg.toEdgelist) = .ok [some (1, 2)] ∧
    (PyGraph.fromCells true 64 (fun _ => 1) ⟨[1, 2], [.real .nan, .int 2], rfl⟩ 2
      >>= fun pg => pg.toEdgelist) = .ok [some (1, 2)] ∧
    PyGraph.fromCells true 64 (fun _ => 0) ⟨[1, 2], [.real .nan, .int 2], rfl⟩ 2 =
      .error .throw := by
  refine ⟨?_, by decide +kernel, by decide +kernel⟩
  have h : (CellArray.toU64 odd ⟨[1, 2], [.real (.fin (3 / 2)), .real (.fin (29 / 10))], rfl⟩) =
      (CellArray.toU64 (fun _ => 0) ⟨[1, 2], [.real (.fin (3 / 2)), .real (.fin (29 / 10))], rfl⟩) := by
    unfold CellArray.toU64 Cell.toU64
    simp only [List.map_cons, List.map_nil]
    norm_num
  unfold PyGraph.fromCells
  rw [h]
  decide +kernel

/-- Signed integers: a negative number is refused. -/
example : PyGraph.fromCells true 64 (fun _ => 0) ⟨[1, 2], [.int (-1), .int 2], rfl⟩ 2 =
      .error .throw ∧
    (PyGraph.fromCells true 64 (fun _ => 0) ⟨[2, 2], [.int 3, .int 2, .int 1, .int 2], rfl⟩ 3
      >>= fun pg => pg.toEdgelist) = .ok [some (1, 2), some (2, 3)] := by
  decide +kernel

/-- The hypotheses of the theorems on integers hold of the second array above. -/
example : ∀ x ∈ [Cell.int 3, .int 2, .int 1, .int 2], x.IsInt := by
  intro x hx
  simp only [List.mem_cons, List.not_mem_nil, or_false] at hx
  rcases hx with rfl | rfl | rfl | rfl <;> exact ⟨_, rfl, by norm_num, by norm_num⟩

/-- **C81** for `from_matrix`: two vertices are adjacent if one of their two entries is a number
other than zero, whatever the type (NaN counts as such). -/
theorem C81_matrix (argLR : Bool) (cap : Nat) {n : Nat} (hn : n < 2 ^ 28) (A : Nat → Nat → Cell) :
    ∃ pg, PyGraph.fromCellMatrix argLR cap n n A = .ok pg ∧ pg.nvert = n ∧
      ∀ v, 1 ≤ v → v ≤ n → ∃ l, pg.getVertexData v = .ok l ∧ l.Pairwise (· < ·) ∧
        ∀ u, u ∈ l ↔ u ≠ v ∧ (1 ≤ u ∧ u ≤ n) ∧
          (¬ (A (u - 1) (v - 1)).Is 0 ∨ ¬ (A (v - 1) (u - 1)).Is 0) := by
  have hb : ∀ x : Cell, x.toBool = true ↔ ¬ x.Is 0 := by
    intro x
    rcases x with z | q | s | _
    · simp [Cell.toBool, Cell.Is]
    · simp [Cell.toBool, Cell.Is]
    · simp [Cell.toBool, Cell.Is]
    · simp [Cell.toBool, Cell.Is]
  obtain ⟨pg, G, h1, h2⟩ := fromMatrix_spec argLR cap (A := fun i j => (A i j).toBool) hn
  refine ⟨pg, h1, by rw [h2.eq], fun v hv1 hv => ?_⟩
  obtain ⟨l, l1, l2, l3⟩ := C05_neighbours (.matrix hn h1) hv
  refine ⟨l, l1, l2, fun u => ?_⟩
  rw [l3]
  show v ≠ u ∧ (1 ≤ v ∧ v ≤ n) ∧ (1 ≤ u ∧ u ≤ n) ∧ ((A (v - 1) (u - 1)).toBool = true ∨
    (A (u - 1) (v - 1)).toBool = true) ↔ _
  rw [hb, hb]
  constructor
  · rintro ⟨a, b, c, d⟩; exact ⟨a.symm, c, d.symm⟩
  · rintro ⟨a, b, c⟩; exact ⟨a.symm, ⟨hv1, hv⟩, b, c.symm⟩

example : (PyGraph.fromCellMatrix true 64 2 2
    (fun i j => if i = 0 ∧ j = 1 then .real .nan else .int 0) >>= PyGraph.toMatrix) =
      .ok [[false, true], [true, false]] := by
  decide +kernel

end CM
