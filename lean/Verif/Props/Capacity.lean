import Verif.Model.Capacity
import Verif.Model.File
import Verif.Props.MemoryExact

/-!
# C22 with GNU's libstdc++

The theorems of `MemoryExact` for the capacities that libstdc++ chooses: small graphs with few
edges fault, and sparse graphs with many vertices do not.
-/

namespace CM

open Spec Graph Sample

variable {n : Nat} {S : SimpleGraph Nat}

/-- Pushing never shrinks a vector, and doubles its capacity once it is full. -/
theorem grown_spec : ∀ (k s c : Nat), s ≤ c → c ≤ grown (s, c) k ∧ s + k ≤ grown (s, c) k ∧
    (c < s + k → 2 * c ≤ grown (s, c) k) := by
  intro k
  induction k with
  | zero => intro s c h; simp only [grown]; omega
  | succ k ih =>
    intro s c h
    simp only [grown, pushCap]
    split
    · rename_i e
      subst e
      obtain ⟨h1, h2, h3⟩ := ih (s + 1) (s + max s 1) (by omega)
      omega
    · obtain ⟨h1, h2, h3⟩ := ih (s + 1) c (by omega)
      refine ⟨h1, by omega, fun h => h3 (by omega)⟩

/-- A vertex has at most as many neighbours as there are edges. -/
theorem degree_le_edgeCount (hr : ∀ u v, S.Adj u v → (1 ≤ u ∧ u ≤ n) ∧ (1 ≤ v ∧ v ≤ n)) (v : Nat) :
    degree S n v ≤ edgeCount S n := by
  classical
  unfold degree edgeCount
  apply Finset.card_le_card_of_injOn (fun w => (min v w, max v w))
  · intro w hw
    have hw := (Finset.mem_filter.1 hw).2
    have := hr _ _ hw
    have hne := hw.ne
    refine Finset.mem_coe.2 (Finset.mem_filter.2 ⟨Finset.mem_product.2
      ⟨Finset.mem_Icc.2 ⟨by simp only; omega, by simp only; omega⟩,
       Finset.mem_Icc.2 ⟨by simp only; omega, by simp only; omega⟩⟩, by simp only; omega, ?_⟩)
    simp only
    rcases Nat.lt_or_gt_of_ne hne with h | h
    · rw [show min v w = v by omega, show max v w = w by omega]; exact hw
    · rw [show min v w = w by omega, show max v w = v by omega]; exact hw.symm
  · intro a _ b _ h
    simp only [Prod.mk.injEq] at h
    omega

theorem later_le_degree (v : Nat) : later S n v ≤ degree S n v := by
  classical
  unfold later degree
  apply Finset.card_le_card
  intro w hw
  rw [Finset.mem_filter] at hw ⊢
  exact ⟨hw.1, hw.2.1⟩

/-- **C22**: a graph with `n` vertices and no vertex with 64 neighbours or more, given to
`from_edgelist` as one row or more, is usable if no vertex has more than `n / 2 - 2` later
neighbours (in the order by degree, then number). -/
theorem C22_libstdcxx_sparse {argLR : Bool} {rows : List (Nat × Nat)} {pg : PyGraph}
    (hn : n < 2 ^ 31) (hl : rows.length < 2 ^ 56)
    (h : PyGraph.fromEdgelist argLR (edgelistCap n rows.length) rows n = .ok pg)
    (he : ∃ u v, (ofPairs rows).Adj u v) (hd : ∀ v, degree (ofPairs rows) n v < 64)
    (hlt : ∀ v, 2 * later (ofPairs rows) n v + 4 ≤ n) : Usable pg n (ofPairs rows) := by
  rw [C22_usable_edgelist hn hl h]
  refine ⟨he, Or.inl ?_⟩
  have hpos : 0 < rows.length := by
    obtain ⟨u, v, _, h | h⟩ := he
    · exact List.length_pos_of_mem h
    · exact List.length_pos_of_mem h
  have hg := (grown_spec (2 * rows.length) (n + 1) (n + 1) (Nat.le_refl _)).2.2 (by omega)
  have hsum : ∑ v ∈ Finset.Icc 1 n, degree (ofPairs rows) n v / 64 = 0 := by
    apply Finset.sum_eq_zero
    intro v _
    have := hd v
    omega
  have hsd : (Finset.Icc 1 n).sup (degree (ofPairs rows) n) / 64 = 0 := by
    have : (Finset.Icc 1 n).sup (degree (ofPairs rows) n) ≤ 63 := by
      apply Finset.sup_le
      intro v _
      have := hd v
      omega
    omega
  have h4 : 4 ≤ n := by have := hlt 0; omega
  have hsl : (Finset.Icc 1 n).sup (later (ofPairs rows) n) ≤ n / 2 - 2 := by
    apply Finset.sup_le
    intro v _
    have := hlt v
    omega
  unfold wordsNeeded edgelistCap
  rw [hsum, hsd]
  omega

theorem degree_one_edge (u v x : Nat) : degree (ofPairs [(u, v)]) n x ≤ 1 := by
  classical
  unfold degree
  rw [Finset.card_le_one]
  intro a ha b hb
  have ha := (Finset.mem_filter.1 ha).2
  have hb := (Finset.mem_filter.1 hb).2
  simp only [ofPairs, List.mem_singleton, Prod.mk.injEq] at ha hb
  omega

example {argLR : Bool} {pg : PyGraph}
    (h : PyGraph.fromEdgelist argLR (edgelistCap 7 1) [(3, 5)] 7 = .ok pg) :
    Usable pg 7 (ofPairs [(3, 5)]) :=
  C22_libstdcxx_sparse (rows := [(3, 5)]) (by decide) (by decide) h
    ⟨3, 5, by decide, Or.inl (by simp)⟩
    (fun v => Nat.lt_of_le_of_lt (degree_one_edge 3 5 v) (by decide))
    (fun v => by
      have h1 := later_le_degree (S := ofPairs [(3, 5)]) (n := 7) v
      have h2 := degree_one_edge (n := 7) 3 5 v
      omega)

/-- One edge. -/
theorem needed_one_edge {u v : Nat} (hu : 1 ≤ u ∧ u ≤ n) (hv : 1 ≤ v ∧ v ≤ n) (hne : u ≠ v) :
    wordsNeeded (ofPairs [(u, v)]) n = n + 8 ∧ wordsStored (ofPairs [(u, v)]) n = n + 3 := by
  classical
  have hadj : ∀ x y, (ofPairs [(u, v)]).Adj x y ↔ (x = u ∧ y = v) ∨ (x = v ∧ y = u) := by
    intro x y
    simp only [ofPairs, List.mem_singleton, Prod.mk.injEq]
    omega
  have hdle : ∀ x, degree (ofPairs [(u, v)]) n x ≤ 1 := degree_one_edge u v
  have hdu : ∀ x, x = u ∨ x = v → degree (ofPairs [(u, v)]) n x = 1 := by
    intro x hx
    apply Nat.le_antisymm (hdle x)
    unfold degree
    rw [Nat.succ_le_iff, Finset.card_pos]
    rcases hx with rfl | rfl
    · exact ⟨v, Finset.mem_filter.2 ⟨Finset.mem_Icc.2 hv, (hadj _ _).2 (Or.inl ⟨rfl, rfl⟩)⟩⟩
    · exact ⟨u, Finset.mem_filter.2 ⟨Finset.mem_Icc.2 hu, (hadj _ _).2 (Or.inr ⟨rfl, rfl⟩)⟩⟩
  have hlle : ∀ x, later (ofPairs [(u, v)]) n x ≤ 1 :=
    fun x => (later_le_degree x).trans (hdle x)
  have hl1 : later (ofPairs [(u, v)]) n (min u v) = 1 := by
    apply Nat.le_antisymm (hlle _)
    unfold later
    rw [Nat.succ_le_iff, Finset.card_pos]
    refine ⟨max u v, Finset.mem_filter.2 ⟨Finset.mem_Icc.2 ⟨by omega, by omega⟩, ?_, Or.inr ⟨?_, by omega⟩⟩⟩
    · rw [hadj]; omega
    · rw [hdu _ (by omega), hdu _ (by omega)]
  have hsl : (Finset.Icc 1 n).sup (later (ofPairs [(u, v)]) n) = 1 := by
    apply Nat.le_antisymm
    · exact Finset.sup_le fun x _ => hlle x
    · have := Finset.le_sup (f := later (ofPairs [(u, v)]) n)
        (show min u v ∈ Finset.Icc 1 n from Finset.mem_Icc.2 ⟨by omega, by omega⟩)
      rwa [hl1] at this
  have hsd : (Finset.Icc 1 n).sup (degree (ofPairs [(u, v)]) n) / 64 = 0 := by
    have : (Finset.Icc 1 n).sup (degree (ofPairs [(u, v)]) n) ≤ 1 :=
      Finset.sup_le fun x _ => hdle x
    omega
  have hsum : ∑ x ∈ Finset.Icc 1 n, degree (ofPairs [(u, v)]) n x / 64 = 0 := by
    apply Finset.sum_eq_zero
    intro x _
    have := hdle x
    omega
  have hec : edgeCount (ofPairs [(u, v)]) n = 1 := by
    rw [← edgeCount_list (n := n) (es := [(min u v, max u v)])]
    · rfl
    · intro x y h
      rw [hadj] at h
      omega
    · simp
    · rintro ⟨x, y⟩
      rw [hadj]
      simp only [List.mem_singleton, Prod.mk.injEq]
      omega
  unfold wordsNeeded wordsStored
  rw [hsum, hsl, hsd, hec]
  omega

/-- **C22** with libstdc++: a graph with a single edge can be searched if it has six vertices or
more; with up to five vertices every search accesses freed memory, whatever its parameters. -/
theorem C22_libstdcxx_one_edge {argLR : Bool} {u v : Nat} {pg : PyGraph} (hn : n < 2 ^ 31)
    (hu : 1 ≤ u ∧ u ≤ n) (hv : 1 ≤ v ∧ v ≤ n) (hne : u ≠ v)
    (h : PyGraph.fromEdgelist argLR (edgelistCap n 1) [(u, v)] n = .ok pg)
    {srt : List VData → List VData} (hsrt : ∀ l, (srt l).Perm l) (a : PyGraph.Args) :
    if 6 ≤ n then ∃ r, pg.getMaxClique srt a = .ok r else pg.getMaxClique srt a = .error .ub := by
  have hL : Loaded pg n (ofPairs [(u, v)]) := .edgelist hn (by simp) h
  have he : ∃ x y, (ofPairs [(u, v)]).Adj x y := ⟨u, v, hne, Or.inl (by simp)⟩
  have hU := C22_usable_edgelist hn (by simp) h
  obtain ⟨e1, e2⟩ := needed_one_edge hu hv hne
  have hc : edgelistCap n 1 = 2 * (n + 1) := by
    show grown (n + 1, n + 1) (0 + 1 + 1) = _
    simp only [grown, pushCap]
    rw [if_pos trivial, if_neg (by omega)]
    omega
  have hroom : HasRoom (ofPairs [(u, v)]) n (edgelistCap n 1) ↔ 6 ≤ n := by
    unfold HasRoom
    rw [e1, e2, hc]
    omega
  rw [hroom] at hU
  split
  · rename_i h6
    obtain ⟨G, hF⟩ := (hU.2 ⟨he, h6⟩).fresh
    obtain ⟨G', i, h4, _⟩ := getMaxClique_spec hF.pyok hsrt a
    exact ⟨_, h4⟩
  · rename_i h6
    exact C22_moved_faults hL he (fun hk => h6 (hU.1 ⟨hL, hk, he⟩).2) hsrt a

/-- `Graph.from_edgelist([[1, 2]], 2).get_max_clique()` accesses freed memory;
`Graph.from_edgelist([[1, 2]], 6).get_max_clique()` does not. -/
example : (∃ pg, PyGraph.fromEdgelist true (edgelistCap 2 1) [(1, 2)] 2 = .ok pg ∧
      pg.getMaxClique byDegree {} = .error .ub) ∧
    (PyGraph.fromEdgelist true (edgelistCap 6 1) [(1, 2)] 6 >>= fun pg =>
      pg.getMaxClique byDegree {} >>= fun r => .ok r.2) = .ok (.ret [1, 2]) := by
  obtain ⟨h1, _⟩ := fromEdgelist_spec true (edgelistCap 2 1) (rows := [(1, 2)]) (n := 2)
    (by decide) (by decide)
  obtain ⟨pg, G, h, _⟩ := h1 (by unfold ValidRows; decide)
  exact ⟨⟨pg, h, C22_libstdcxx_one_edge (by decide) (by decide) (by decide) (by decide) h
    byDegree_perm {}⟩, by decide +kernel⟩

/-- The cells are the diagonal and the others that are marked. -/
theorem cellCount_eq (n : Nat) (A : Nat → Nat → Bool) : cellCount n A = n + offDiag n A := by
  classical
  have h1 : cellCount n A = ∑ i ∈ Finset.range n,
      ((Finset.range n).filter fun j => A i j = true ∨ i = j).card := by
    unfold cellCount
    rw [← Finset.card_sigma]
    apply Finset.card_bij' (i := fun (e : Nat × Nat) _ => (⟨e.1, e.2⟩ : (_ : Nat) × Nat))
      (j := fun (x : (_ : Nat) × Nat) _ => (x.1, x.2))
    · rintro ⟨i, j⟩ h
      simp only [Finset.mem_filter, Finset.mem_product, Finset.mem_range] at h
      simp only [Finset.mem_sigma, Finset.mem_range, Finset.mem_filter]
      exact ⟨h.1.1, h.1.2, h.2⟩
    · rintro ⟨i, j⟩ h
      simp only [Finset.mem_sigma, Finset.mem_range, Finset.mem_filter] at h
      simp only [Finset.mem_filter, Finset.mem_product, Finset.mem_range]
      exact ⟨⟨h.1, h.2.1⟩, h.2.2⟩
    · rintro ⟨i, j⟩ _; rfl
    · rintro ⟨i, j⟩ _; rfl
  rw [h1]
  unfold offDiag
  have h2 : ∀ i ∈ Finset.range n, ((Finset.range n).filter fun j => A i j = true ∨ i = j).card =
      1 + ((Finset.range n).filter fun j => A i j = true ∧ i ≠ j).card := by
    intro i hi
    have : (Finset.range n).filter (fun j => A i j = true ∨ i = j) =
        insert i ((Finset.range n).filter fun j => A i j = true ∧ i ≠ j) := by
      ext j
      simp only [Finset.mem_filter, Finset.mem_insert]
      constructor
      · rintro ⟨a, b⟩
        by_cases hij : i = j
        · exact Or.inl hij.symm
        · exact Or.inr ⟨a, b.resolve_right hij, hij⟩
      · rintro (rfl | ⟨a, b, _⟩)
        · exact ⟨hi, Or.inr rfl⟩
        · exact ⟨a, Or.inl b⟩
    rw [this, Finset.card_insert_of_notMem (by simp)]
    omega
  rw [Finset.sum_congr rfl h2, Finset.sum_add_distrib]
  simp

/-- **C22** with libstdc++: a graph given as a symmetric matrix is usable if it has an edge and no
vertex has 64 neighbours or more. -/
theorem C22_libstdcxx_matrix {argLR : Bool} {A : Nat → Nat → Bool} {pg : PyGraph}
    (hn : n < 2 ^ 28) (h : PyGraph.fromMatrix argLR (matrixCap n A) n n A = .ok pg)
    (hs : ∀ i j, i < n → j < n → A i j = A j i) (he : ∃ u v, (ofMatrix n A).Adj u v)
    (hd : ∀ v, degree (ofMatrix n A) n v < 64) : Usable pg n (ofMatrix n A) := by
  classical
  rw [C22_usable_matrix hn h]
  refine ⟨he, Or.inl ?_⟩
  have hrng : ∀ u v, (ofMatrix n A).Adj u v → (1 ≤ u ∧ u ≤ n) ∧ (1 ≤ v ∧ v ≤ n) :=
    fun u v h => ⟨h.2.1, h.2.2.1⟩
  have hc := cellCount_eq n A
  have ho := offDiag_count hs
  have hg := (grown_spec (1 + 2 * cellCount n A) 0 0 (Nat.le_refl _)).2.1
  have hsum : ∑ v ∈ Finset.Icc 1 n, degree (ofMatrix n A) n v / 64 = 0 := by
    apply Finset.sum_eq_zero
    intro v _
    have := hd v
    omega
  have hsd : (Finset.Icc 1 n).sup (degree (ofMatrix n A) n) / 64 = 0 := by
    have : (Finset.Icc 1 n).sup (degree (ofMatrix n A) n) ≤ 63 := by
      apply Finset.sup_le
      intro v _
      have := hd v
      omega
    omega
  have hsl : (Finset.Icc 1 n).sup (later (ofMatrix n A) n) ≤ edgeCount (ofMatrix n A) n :=
    Finset.sup_le fun v _ => (later_le_degree v).trans (degree_le_edgeCount hrng v)
  have hpos : 1 ≤ edgeCount (ofMatrix n A) n := by
    obtain ⟨u, v, huv⟩ := he
    refine Nat.le_trans ?_ (degree_le_edgeCount hrng u)
    unfold degree
    rw [Nat.succ_le_iff, Finset.card_pos]
    exact ⟨v, Finset.mem_filter.2 ⟨Finset.mem_Icc.2 (hrng _ _ huv).2, huv⟩⟩
  have hn2 : 2 ≤ n := by
    obtain ⟨u, v, huv⟩ := he
    have := hrng _ _ huv
    have := huv.ne
    omega
  unfold wordsNeeded
  rw [hsum, hsd]
  by_cases h2 : n = 2 ∧ offDiag n A = 2
  · have hc4 : cellCount n A = 4 := by omega
    have : matrixCap n A = 16 := by unfold matrixCap; rw [hc4]; rfl
    omega
  · unfold matrixCap
    omega

/-- Two connected vertices, however they are given: as a matrix, an adjacency list, a list of
edges. -/
example : (PyGraph.fromMatrix true (matrixCap 2 fun i j => i != j) 2 2 (fun i j => i != j) >>=
      fun pg => pg.getMaxClique byDegree {} >>= fun r => .ok r.2) = .ok (.ret [1, 2]) ∧
    (PyGraph.fromAdjList true (adjlistCap 2 2) 2 1 [[], [2], [1]] >>=
      fun pg => pg.getMaxClique byDegree {} >>= fun r => .ok r.2) = .error .ub ∧
    (PyGraph.fromEdgelist true (edgelistCap 2 1) [(1, 2)] 2 >>=
      fun pg => pg.getMaxClique byDegree {} >>= fun r => .ok r.2) = .error .ub := by
  decide +kernel

/-- **C22** with libstdc++: the file of a complete graph with two or three vertices cannot be
searched either; from four vertices on it can. -/
theorem C22_libstdcxx_complete_file {argLR : Bool} {edges : Edges} {m : Nat} {pg : PyGraph}
    (h2 : 2 ≤ n) (h64 : n ≤ 64) (hl : edges.length < 2 ^ 58) (hD : Describes edges n S)
    (hS : ∀ u v, S.Adj u v ↔ u ≠ v ∧ (1 ≤ u ∧ u ≤ n) ∧ (1 ≤ v ∧ v ≤ n))
    (hm : 2 * m = n * (n - 1))
    (h : PyGraph.loadGraph argLR (fileCap n m) PyGraph.new n m edges = .ok pg)
    {srt : List VData → List VData} (hsrt : ∀ l, (srt l).Perm l) (a : PyGraph.Args) :
    if 4 ≤ n then ∃ r, pg.getMaxClique srt a = .ok r else pg.getMaxClique srt a = .error .ub := by
  have hn : n < 2 ^ 31 := by
    have : 64 < 2 ^ 31 := by decide
    omega
  have hL : Loaded pg n S := .built hn hl hD h
  have he : ∃ x y, S.Adj x y := ⟨1, 2, (hS 1 2).2 ⟨by decide, by omega, by omega⟩⟩
  have hU := C22_usable_built hn hl hD h
  rw [room_complete h2 h64 hS] at hU
  have hc : 4 ≤ n ∨ 3 * n + 4 ≤ fileCap n m ↔ 4 ≤ n := by
    unfold fileCap
    rw [hm]
    constructor
    · rintro (h | h)
      · exact h
      · by_contra h4
        have : n = 2 ∨ n = 3 := by omega
        rcases this with rfl | rfl <;> omega
    · exact Or.inl
  rw [hc] at hU
  split
  · rename_i h6
    obtain ⟨G, hF⟩ := (hU.2 ⟨he, h6⟩).fresh
    obtain ⟨G', i, h4, _⟩ := getMaxClique_spec hF.pyok hsrt a
    exact ⟨_, h4⟩
  · rename_i h6
    exact C22_moved_faults hL he (fun hk => h6 (hU.1 ⟨hL, hk, he⟩).2) hsrt a

/-- The file of a triangle, and of four connected vertices. -/
example : (PyGraph.fromFile true (fileCap 3 3) true "3 3 3\n1 2\n1 3\n2 3\n".toList >>= fun pg =>
      pg.getMaxClique byDegree {} >>= fun r => .ok r.2) = .error .ub ∧
    (PyGraph.fromFile true (fileCap 4 6) true
      "4 4 6\n1 2\n1 3\n2 3\n1 4\n2 4\n3 4\n".toList >>= fun pg =>
      pg.getMaxClique byDegree {} >>= fun r => .ok r.2) = .ok (.ret [1, 2, 3, 4]) := by
  decide +kernel

end CM
