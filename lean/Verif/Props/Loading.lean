import Verif.Lemmas.EdgeCount
import Verif.Props.Sample

/-!
# C01-C06: loading and exporting graphs
-/

namespace CM

open Spec Graph

/-! ## C01 -/

/-- **C01**: cleaning any list of edges with endpoints up to `n` leaves exactly the
distinct edges given, in strictly increasing dictionary order. -/
theorem C01_clean_edges {n : Nat} {edges : List (Nat × Nat)} (hn : 0 < n) (hn' : n < 2 ^ 64)
    (h : ∀ e ∈ edges, e.1 ≤ n ∧ e.2 ≤ n) :
    ∃ out, cleanEdges n edges = .ok out ∧ out.Pairwise lexLess ∧ out.Nodup ∧
      ∀ e, e ∈ out ↔ e ∈ edges := by
  obtain ⟨out, h1, h2, h3⟩ := cleanEdges_spec hn hn' h
  exact ⟨out, h1, h2, lexLt_nodup h2, h3⟩

/-- **C01**: the order and multiplicity of the input do not matter. -/
theorem C01_input_order {n : Nat} {edges edges' : List (Nat × Nat)} (hn : 0 < n)
    (hn' : n < 2 ^ 64) (h : ∀ e ∈ edges, e.1 ≤ n ∧ e.2 ≤ n)
    (hs : ∀ e, e ∈ edges' ↔ e ∈ edges) : cleanEdges n edges' = cleanEdges n edges := by
  obtain ⟨a, h1, h2, _, h3⟩ := C01_clean_edges hn hn' h
  obtain ⟨b, h4, h5, _, h6⟩ := C01_clean_edges (edges := edges') hn hn'
    (fun e he => h e ((hs e).1 he))
  rw [h1, h4]
  have hp : ∀ {x y}, lexLess x y → lexLess y x → False := by
    intro x y h h'; unfold lexLess at *; omega
  congr 1
  refine List.Perm.eq_of_pairwise (le := lexLess) (fun x y _ _ h h' => (hp h h').elim) h5 h2 ?_
  rw [List.perm_ext_iff_of_nodup (lexLt_nodup h5) (lexLt_nodup h2)]
  intro e; rw [h6, hs, h3]

example : cleanEdges 300 [(300, 2), (1, 2), (300, 1), (17, 5), (1, 2), (16, 300), (300, 2)] =
    .ok [(1, 2), (16, 300), (17, 5), (300, 1), (300, 2)] := by decide +kernel

/-! ## C02 -/

/-- What `_vertex_neighbors` answers on an object that holds `S`. -/
theorem neighbours_spec {pg : PyGraph} {n : Nat} {S : SimpleGraph Nat} {G : Graph}
    (h : Holds pg n S G) {v : Nat} (hv : v ≤ n) :
    ∃ l, pg.getVertexData v = .ok l ∧ l.Pairwise (· < ·) ∧ ∀ u, u ∈ l ↔ S.Adj v u := by
  unfold PyGraph.getVertexData
  rw [h.nv, if_neg (by omega), h.g]
  exact vertexData_spec h.str h.of hv

/-- **C02**: `from_edgelist(rows, n)` succeeds exactly if all endpoints are in `1 .. n`
(otherwise it raises), and then `_vertex_neighbors(v)` lists exactly the vertices joined to
`v` by a row in either orientation. -/
theorem C02_from_edgelist (argLR : Bool) (cap : Nat) {rows : List (Nat × Nat)} {n : Nat}
    (hn : n < 2 ^ 31) (hlen : rows.length < 2 ^ 56) :
    ((∃ pg, PyGraph.fromEdgelist argLR cap rows n = .ok pg) ↔
      ∀ r ∈ rows, (1 ≤ r.1 ∧ r.1 ≤ n) ∧ (1 ≤ r.2 ∧ r.2 ≤ n)) ∧
    (¬ (∀ r ∈ rows, (1 ≤ r.1 ∧ r.1 ≤ n) ∧ (1 ≤ r.2 ∧ r.2 ≤ n)) →
      PyGraph.fromEdgelist argLR cap rows n = .error .throw) ∧
    ∀ pg, PyGraph.fromEdgelist argLR cap rows n = .ok pg → pg.nvert = n ∧
      ∀ v, v ≤ n → ∃ l, pg.getVertexData v = .ok l ∧ l.Pairwise (· < ·) ∧
        ∀ u, u ∈ l ↔ u ≠ v ∧ ((u, v) ∈ rows ∨ (v, u) ∈ rows) := by
  obtain ⟨h1, h2⟩ := fromEdgelist_spec argLR cap (rows := rows) hn hlen
  refine ⟨⟨?_, ?_⟩, h2, ?_⟩
  · rintro ⟨pg, h⟩
    by_contra hv
    rw [h2 hv] at h; cases h
  · intro hv
    obtain ⟨pg, G, h3, _⟩ := h1 hv
    exact ⟨pg, h3⟩
  · intro pg h
    by_cases hv : ValidRows rows n
    · obtain ⟨pg', G, h3, h4⟩ := h1 hv
      rw [h] at h3; cases h3
      refine ⟨h4.holds.nv, fun v hv => ?_⟩
      obtain ⟨l, a1, a2, a3⟩ := neighbours_spec h4.holds hv
      refine ⟨l, a1, a2, fun u => ?_⟩
      rw [a3]
      show v ≠ u ∧ ((v, u) ∈ rows ∨ (u, v) ∈ rows) ↔ _
      rw [or_comm]
      exact ⟨fun h => ⟨h.1.symm, h.2⟩, fun h => ⟨h.1.symm, h.2⟩⟩
    · rw [h2 hv] at h; cases h

example : (PyGraph.fromEdgelist true 0 [(2, 1), (1, 2), (3, 3), (3, 2)] 4 >>= fun pg =>
    pg.getVertexData 2) = .ok [1, 3] := by decide +kernel
example : PyGraph.fromEdgelist true 0 [(2, 1), (5, 2)] 4 = .error .throw := by decide +kernel

/-! ## C03 -/

/-- **C03**: `from_matrix(A)` succeeds exactly if `A` is square (otherwise it raises), and
then distinct vertices are adjacent exactly if one of their two entries is set. -/
theorem C03_from_matrix (argLR : Bool) (cap : Nat) {r c : Nat} (A : Nat → Nat → Bool)
    (hr : r < 2 ^ 28) :
    ((∃ pg, PyGraph.fromMatrix argLR cap r c A = .ok pg) ↔ r = c) ∧
    (r ≠ c → PyGraph.fromMatrix argLR cap r c A = .error .throw) ∧
    ∀ pg, PyGraph.fromMatrix argLR cap r c A = .ok pg → pg.nvert = r ∧
      ∀ v, 1 ≤ v → v ≤ r → ∃ l, pg.getVertexData v = .ok l ∧ l.Pairwise (· < ·) ∧
        ∀ u, u ∈ l ↔ u ≠ v ∧ (1 ≤ u ∧ u ≤ r) ∧
          (A (u - 1) (v - 1) = true ∨ A (v - 1) (u - 1) = true) := by
  refine ⟨⟨?_, ?_⟩, fun h => fromMatrix_fail argLR cap h, ?_⟩
  · rintro ⟨pg, h⟩
    by_contra hne
    rw [fromMatrix_fail argLR cap hne] at h; cases h
  · rintro rfl
    obtain ⟨pg, G, h3, _⟩ := fromMatrix_spec argLR cap (A := A) hr
    exact ⟨pg, h3⟩
  · intro pg h
    by_cases hne : r = c
    · subst hne
      obtain ⟨pg', G, h3, h4⟩ := fromMatrix_spec argLR cap (A := A) hr
      rw [h] at h3; cases h3
      refine ⟨h4.holds.nv, fun v hv1 hv => ?_⟩
      obtain ⟨l, a1, a2, a3⟩ := neighbours_spec h4.holds hv
      refine ⟨l, a1, a2, fun u => ?_⟩
      rw [a3]
      show v ≠ u ∧ (1 ≤ v ∧ v ≤ r) ∧ (1 ≤ u ∧ u ≤ r) ∧
        (A (v - 1) (u - 1) = true ∨ A (u - 1) (v - 1) = true) ↔ _
      rw [or_comm]
      exact ⟨fun h => ⟨h.1.symm, h.2.2.1, h.2.2.2⟩, fun h => ⟨h.1.symm, ⟨hv1, hv⟩, h.2.1, h.2.2⟩⟩
    · rw [fromMatrix_fail argLR cap hne] at h; cases h

example : (PyGraph.fromMatrix true 0 4 4 (fun i j => i == 1 && j ≥ 2) >>= fun pg =>
    pg.getVertexData 4) = .ok [2] := by decide +kernel

/-! ## C04 -/

/-- **C04**: `from_adjlist(n, m, sets)` succeeds exactly if the list has an empty entry `0`
and entries `1 .. n`, every member of every entry is a vertex other than its owner whose
entry contains the owner, and `m` is half the total size; otherwise it raises. -/
theorem C04_from_adjlist (argLR : Bool) (cap : Nat) {n m : Nat} {sets : List (List Nat)}
    (hn : n < 2 ^ 31) (hs : sets.length < 2 ^ 64) (hlen : (sets.map List.length).sum < 2 ^ 57) :
    ((∃ pg, PyGraph.fromAdjList argLR cap n m sets = .ok pg) ↔
      (sets.length = n + 1 ∧ sets.getD 0 [] = [] ∧
        (∀ i, i ≤ n → ∀ j ∈ sets.getD i [], (1 ≤ j ∧ j ≤ n) ∧ j ≠ i ∧ i ∈ sets.getD j []) ∧
        (sets.map List.length).sum / 2 = m)) ∧
    ((∃ pg, PyGraph.fromAdjList argLR cap n m sets = .ok pg) ∨
      PyGraph.fromAdjList argLR cap n m sets = .error .throw) := by
  obtain ⟨h1, h2⟩ := fromAdjList_spec argLR cap (n := n) (m := m) (sets := sets) hn hs hlen
  have key : (∃ pg, PyGraph.fromAdjList argLR cap n m sets = .ok pg) ↔
      (ValidSets sets n ∧ entries sets / 2 = m) := by
    constructor
    · rintro ⟨pg, h⟩
      by_contra hv
      rw [h2 hv] at h; cases h
    · intro hv
      obtain ⟨pg, G, h3, _⟩ := h1 hv
      exact ⟨pg, h3⟩
  refine ⟨key.trans ?_, ?_⟩
  · constructor
    · rintro ⟨a, b⟩; exact ⟨a.len, a.zero, a.entry, b⟩
    · rintro ⟨a, b, c, d⟩; exact ⟨⟨a, b, c⟩, d⟩
  · by_cases hv : ValidSets sets n ∧ entries sets / 2 = m
    · exact Or.inl (key.2 hv)
    · exact Or.inr (h2 hv)

/-- **C04**: `to_adjlist()` returns the very sets `from_adjlist` was given (a set being
the increasing list of its elements). -/
theorem C04_adjlist_roundtrip {argLR : Bool} {cap : Nat} {n m : Nat} {sets : List (List Nat)}
    {pg : PyGraph} (hn : n < 2 ^ 31) (hs : sets.length < 2 ^ 64)
    (hlen : (sets.map List.length).sum < 2 ^ 57) (h0 : n ≠ 0)
    (hset : ∀ s ∈ sets, s.Pairwise (· < ·))
    (h : PyGraph.fromAdjList argLR cap n m sets = .ok pg) : pg.toAdjList = .ok sets := by
  obtain ⟨h1, h2⟩ := fromAdjList_spec argLR cap (n := n) (m := m) (sets := sets) hn hs hlen
  by_cases hv : ValidSets sets n ∧ entries sets / 2 = m
  · obtain ⟨pg', G, h3, h4⟩ := h1 hv
    rw [h] at h3; cases h3
    obtain ⟨l, a1, a2, a3⟩ := toAdjList_spec h4.holds h0
    rw [a1]
    congr 1
    have hl := hv.1.len
    apply List.ext_getElem (by omega)
    intro i hi1 hi2
    obtain ⟨b1, b2⟩ := a3 i (by omega)
    have e1 : l.getD i [] = l[i] := by
      rw [List.getD_eq_getElem?_getD, List.getElem?_eq_getElem hi1, Option.getD_some]
    have e2 : sets.getD i [] = sets[i] := by
      rw [List.getD_eq_getElem?_getD, List.getElem?_eq_getElem hi2, Option.getD_some]
    rw [e1] at b1 b2
    apply sorted_ext b1 (hset _ (List.getElem_mem hi2))
    intro x
    rw [b2, ← e2]
    show i ≠ x ∧ (x ∈ sets.getD i [] ∨ i ∈ sets.getD x []) ↔ _
    constructor
    · rintro ⟨_, h | h⟩
      · exact h
      · by_cases hx : x ≤ n
        · exact (hv.1.entry x hx i h).2.2
        · rw [List.getD_eq_getElem?_getD, List.getElem?_eq_none (by omega)] at h
          simp at h
    · intro h
      exact ⟨fun e => (hv.1.entry i (by omega) x h).2.1 e.symm, Or.inl h⟩
  · rw [h2 hv] at h; cases h

example : (PyGraph.fromAdjList true 0 4 3 [[], [2, 3], [1, 3], [1, 2], []] >>=
    PyGraph.toAdjList) = .ok [[], [2, 3], [1, 3], [1, 2], []] := by decide +kernel
example : PyGraph.fromAdjList true 0 3 1 [[], [2], [], []] = .error .throw := by decide +kernel

/-- **C04**, the empty graph: `from_adjlist(0, 0, [set()])` succeeds, but the object it
returns counts as not loaded, so `to_adjlist()` raises. -/
theorem C04_empty : (PyGraph.fromAdjList true 0 0 0 [[]]).isOk = true ∧
    (PyGraph.fromAdjList true 0 0 0 [[]] >>= PyGraph.toAdjList) = .error .throw := by
  decide +kernel

/-! ## C05 -/

/-- **C05**: `to_matrix()` is the symmetric zero-diagonal matrix of the graph. -/
theorem C05_to_matrix {pg : PyGraph} {n : Nat} {S : SimpleGraph Nat} (h : Loaded pg n S)
    (h0 : n ≠ 0) :
    ∃ m, pg.toMatrix = .ok m ∧ m.length = n ∧ (∀ row ∈ m, row.length = n) ∧
      ∀ u v, (1 ≤ u ∧ u ≤ n) → (1 ≤ v ∧ v ≤ n) →
        ((m.getD (u - 1) []).getD (v - 1) false = true ↔ S.Adj u v) := by
  obtain ⟨hn, cap, m, G, hL⟩ := h.as
  obtain ⟨m, h1, h2, h3, h4⟩ := toMatrix_spec hL.holds h0 (by omega)
  refine ⟨m, h1, h2, ?_, h4⟩
  intro row hr
  obtain ⟨i, hi, rfl⟩ := List.mem_iff_getElem.1 hr
  have := h3 i (by omega)
  rwa [List.getD_eq_getElem?_getD, List.getElem?_eq_getElem hi, Option.getD_some] at this

/-- **C05**: `to_adjlist()` has an empty entry `0` and the increasing list of neighbours
of `v` as its entry `v`. -/
theorem C05_to_adjlist {pg : PyGraph} {n : Nat} {S : SimpleGraph Nat} (h : Loaded pg n S)
    (h0 : n ≠ 0) :
    ∃ l, pg.toAdjList = .ok l ∧ l.length = n + 1 ∧
      ∀ v, v ≤ n → (l.getD v []).Pairwise (· < ·) ∧ ∀ u, u ∈ l.getD v [] ↔ S.Adj v u := by
  obtain ⟨hn, cap, m, G, hL⟩ := h.as
  exact toAdjList_spec hL.holds h0

/-- **C05**: if `n_edges` is the number of edges, `to_edgelist()` lists every edge once,
smaller endpoint first, in dictionary order, and leaves no row unwritten. -/
theorem C05_to_edgelist {pg : PyGraph} {n : Nat} {S : SimpleGraph Nat} (h : Loaded pg n S)
    (h0 : n ≠ 0) (hm : pg.nedges = edgeCount S n) :
    ∃ es : List (Nat × Nat), pg.toEdgelist = .ok (es.map some) ∧ es.Pairwise lexLess ∧
      ∀ e, e ∈ es ↔ e.1 < e.2 ∧ S.Adj e.1 e.2 := by
  obtain ⟨hn, cap, m, G, hL⟩ := h.as
  obtain ⟨es, h1, h2, h3⟩ := toEdgelist_spec hL.holds h0
  have hc := edgeCount_list hL.of.rng (lexLt_nodup h1) h2
  refine ⟨es, ?_, h1, h2⟩
  rw [h3, if_pos (by omega), hm, hc]
  simp

/-- **C05**: the neighbour lists agree with the exports. -/
theorem C05_neighbours {pg : PyGraph} {n : Nat} {S : SimpleGraph Nat} (h : Loaded pg n S)
    {v : Nat} (hv : v ≤ n) :
    ∃ l, pg.getVertexData v = .ok l ∧ l.Pairwise (· < ·) ∧ ∀ u, u ∈ l ↔ S.Adj v u := by
  obtain ⟨hn, cap, m, G, hL⟩ := h.as
  exact neighbours_spec hL.holds hv

example : Loaded Sample.kite 5 (ofPairs Sample.rows) ∧ Sample.kite.nedges = 7 ∧
    Sample.kite.toEdgelist = .ok (Sample.rows.map some) ∧
    Sample.kite.toAdjList = .ok [[], [2, 3, 4], [1, 3, 4], [1, 2, 4], [1, 2, 3, 5], [4]] :=
  ⟨Sample.kite_usable.loaded, by decide +kernel⟩

/-! ## C06 -/

/-- **C06**, as far as it is true: `n_edges` is the number of edges for edge lists without
loops and repetitions (in either orientation).  Missing: other edge lists, see
`C06_refuted_edgelist`. -/
theorem C06_edgelist_partial {argLR : Bool} {cap : Nat} {rows : List (Nat × Nat)} {n : Nat}
    {pg : PyGraph} (hn : n < 2 ^ 31) (hlen : rows.length < 2 ^ 56)
    (hl : ∀ r ∈ rows, r.1 ≠ r.2)
    (hnd : (rows.map fun r => (min r.1 r.2, max r.1 r.2)).Nodup)
    (h : PyGraph.fromEdgelist argLR cap rows n = .ok pg) :
    pg.nedges = edgeCount (ofPairs rows) n := by
  obtain ⟨h1, h2⟩ := fromEdgelist_spec argLR cap (rows := rows) hn hlen
  by_cases hv : ValidRows rows n
  · obtain ⟨pg', G, h3, h4⟩ := h1 hv
    rw [h] at h3; cases h3
    rw [← rows_count hv hl hnd, h4.eq]
  · rw [h2 hv] at h; cases h

/-- **C06**, as far as it is true: symmetric matrices (any diagonal). -/
theorem C06_matrix_partial {argLR : Bool} {cap : Nat} {n : Nat} {A : Nat → Nat → Bool}
    {pg : PyGraph} (hn : n < 2 ^ 28) (hs : ∀ i j, i < n → j < n → A i j = A j i)
    (h : PyGraph.fromMatrix argLR cap n n A = .ok pg) :
    pg.nedges = edgeCount (ofMatrix n A) n := by
  obtain ⟨pg', G, h3, h4⟩ := fromMatrix_spec argLR cap (A := A) hn
  rw [h] at h3; cases h3
  rw [← offDiag_count hs, h4.eq]

/-- **C06** for `from_adjlist`: every accepted list of sets. -/
theorem C06_adjlist {argLR : Bool} {cap : Nat} {n m : Nat} {sets : List (List Nat)}
    {pg : PyGraph} (hn : n < 2 ^ 31) (hs : sets.length < 2 ^ 64)
    (hlen : (sets.map List.length).sum < 2 ^ 57) (hset : ∀ s ∈ sets, s.Nodup)
    (h : PyGraph.fromAdjList argLR cap n m sets = .ok pg) :
    pg.nedges = edgeCount (ofSets sets) n := by
  obtain ⟨h1, h2⟩ := fromAdjList_spec argLR cap (n := n) (m := m) (sets := sets) hn hs hlen
  by_cases hv : ValidSets sets n ∧ entries sets / 2 = m
  · obtain ⟨pg', G, h3, h4⟩ := h1 hv
    rw [h] at h3; cases h3
    rw [← entries_count hv.1 hset, hv.2, h4.eq]
  · rw [h2 hv] at h; cases h

/-- **C06** fails for edge lists that repeat an edge: three rows for one edge give
`n_edges = 3`, and `to_edgelist()` returns an array with two uninitialised rows. -/
theorem C06_refuted_edgelist :
    (∃ pg, PyGraph.fromEdgelist true 64 [(1, 2), (2, 1), (1, 2)] 3 = .ok pg ∧
      pg.nedges = 3 ∧ pg.toEdgelist = .ok [some (1, 2), none, none]) ∧
    edgeCount (ofPairs [(1, 2), (2, 1), (1, 2)]) 3 = 1 := by
  refine ⟨⟨Sample.get PyGraph.new (PyGraph.fromEdgelist true 64 [(1, 2), (2, 1), (1, 2)] 3),
    by decide +kernel⟩, ?_⟩
  rw [← edgeCount_list (n := 3) (es := [(1, 2)])]
  · rfl
  · intro u v h
    simp [ofPairs] at h
    omega
  · simp
  · rintro ⟨u, v⟩
    simp [ofPairs]
    omega

/-- **C06** fails for asymmetric matrices: one entry above the diagonal is an edge, but
`n_edges = 0`, and `to_edgelist()` writes outside its array. -/
theorem C06_refuted_matrix :
    ∃ pg, PyGraph.fromMatrix true 64 2 2 (fun i j => i == 0 && j == 1) = .ok pg ∧
      pg.nedges = 0 ∧ pg.getVertexData 1 = .ok [2] ∧ pg.toEdgelist = .error .ub := by
  refine ⟨Sample.get PyGraph.new
    (PyGraph.fromMatrix true 64 2 2 (fun i j => i == 0 && j == 1)), ?_⟩
  decide +kernel

example : (∀ r ∈ Sample.rows, r.1 ≠ r.2) ∧
    (Sample.rows.map fun r => (min r.1 r.2, max r.1 r.2)).Nodup := by decide

end CM
