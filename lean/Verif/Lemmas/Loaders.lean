import Verif.Lemmas.Api

/-! # The loaders of the Python class (pygraph.cpp:126-233) -/

namespace CM

open Spec Graph

theorem mem_selfLoops {n : Nat} {e : Nat × Nat} : e ∈ PyGraph.selfLoops n ↔ e.1 = e.2 ∧ e.1 ≤ n := by
  unfold PyGraph.selfLoops
  rw [List.mem_map]
  constructor
  · rintro ⟨i, hi, rfl⟩; rw [List.mem_range] at hi; exact ⟨rfl, by simp only; omega⟩
  · rintro ⟨h1, h2⟩
    exact ⟨e.1, List.mem_range.2 (by omega), Prod.ext rfl h1⟩

theorem selfLoops_length (n : Nat) : (PyGraph.selfLoops n).length = n + 1 := by
  simp [PyGraph.selfLoops]

/-- What a successful load yields. -/
structure LoadedAs (cap n m : Nat) (S : SimpleGraph Nat) (pg : PyGraph) (G : Graph) : Prop where
  eq : pg = { G := some G, finishedAll := false, nvert := n, nedges := m, currentVertex := 0 }
  str : Str G
  of : Of G n S
  bounds : Bounds G
  cm : G.curMax = 0
  maxd : ∀ v, v < G.nVert → (G.V v).N ≤ G.maxDeg
  dang : (∃ u v, S.Adj u v) → (G.dangling = false ↔ G.need ≤ cap ∨ G.need < G.el.length)
  ok : (∃ u v, S.Adj u v) → G.dangling = false → Ok G
  sing : (∃ u v, S.Adj u v) → ∀ v, v < G.nVert → bset G.eb (G.vb v) = {(G.V v).spos}
  sizes : Sizes n G
  bare : (¬ ∃ u v, S.Adj u v) → G.eb.length = G.ebSize ∧ G.searchCur = 1 + G.ebSize

theorem loadGraph_spec {edges : Edges} {n : Nat} {S : SimpleGraph Nat} (hD : Describes edges n S)
    (hn : n < 2 ^ 31) (hlen : edges.length < 2 ^ 58) (argLR : Bool) (cap m : Nat) :
    ∃ pg G, PyGraph.loadGraph argLR cap PyGraph.new n m edges = .ok pg ∧
      LoadedAs cap n m S pg G := by
  obtain ⟨G, h1, B⟩ := ctor_spec argLR cap hn hlen hD.range
    (fun v hv => (hD.mem v v hv hv).2 (Or.inl rfl))
    (by
      intro u v huv
      have hr := hD.range _ huv
      rw [hD.mem v u hr.2 hr.1]
      rcases (hD.mem u v hr.1 hr.2).1 huv with h | h
      · exact Or.inl h.symm
      · exact Or.inr h.symm)
  refine ⟨_, G, ?_, rfl, B.str, ?_, B.bounds, B.cm, B.maxd, ?_, ?_, ?_, B.sizes, ?_⟩
  · unfold PyGraph.loadGraph PyGraph.new
    rw [h1, ok_bind]
  · refine ⟨B.nv, ?_, hD.rng⟩
    intro u w hu
    rw [B.adj u w hu]
    constructor
    · intro h
      rcases (hD.mem u w hu (hD.range _ h).2).1 h with h | h
      · exact Or.inl h.symm
      · exact Or.inr h
    · rintro (h | h)
      · subst h; exact (hD.mem _ _ hu hu).2 (Or.inl rfl)
      · exact (hD.mem u w hu (hD.rng _ _ h).2.2).2 (Or.inr h)
  · rintro ⟨u, v, huv⟩
    have hr := hD.rng _ _ huv
    exact B.dang ⟨(u, v), (hD.mem u v hr.1.2 hr.2.2).2 (Or.inr huv), huv.ne⟩
  · rintro ⟨u, v, huv⟩
    have hr := hD.rng _ _ huv
    exact B.ok ⟨(u, v), (hD.mem u v hr.1.2 hr.2.2).2 (Or.inr huv), huv.ne⟩
  · rintro ⟨u, v, huv⟩
    have hr := hD.rng _ _ huv
    exact B.sing ⟨(u, v), (hD.mem u v hr.1.2 hr.2.2).2 (Or.inr huv), huv.ne⟩
  · intro hno
    refine B.bare ?_
    rintro ⟨⟨u, v⟩, he, hne⟩
    have hr := hD.range _ he
    rcases (hD.mem u v hr.1 hr.2).1 he with h | h
    · exact hne h
    · exact hno ⟨u, v, h⟩

/-! ## `from_edgelist` -/

/-- All endpoints are vertices. -/
def ValidRows (rows : List (Nat × Nat)) (n : Nat) : Prop :=
  ∀ r ∈ rows, (1 ≤ r.1 ∧ r.1 ≤ n) ∧ (1 ≤ r.2 ∧ r.2 ≤ n)

theorem rows_fold (n : Nat) : ∀ (rows : List (Nat × Nat)) (s : Edges × Nat),
    rows.foldlM (fun (s : Edges × Nat) (r : Nat × Nat) =>
      if r.1 > n ∨ r.2 > n then (.error .throw : M (Edges × Nat))
      else if r.1 = 0 ∨ r.2 = 0 then .error .throw
      else .ok (s.1 ++ [(r.1, r.2), (r.2, r.1)], s.2 + 1)) s =
    if ∀ r ∈ rows, (1 ≤ r.1 ∧ r.1 ≤ n) ∧ (1 ≤ r.2 ∧ r.2 ≤ n) then
      .ok (s.1 ++ rows.flatMap (fun r => [(r.1, r.2), (r.2, r.1)]), s.2 + rows.length)
    else .error .throw := by
  intro rows
  induction rows with
  | nil => intro s; simp
  | cons r rows ih =>
    intro s
    rw [List.foldlM_cons]
    by_cases h1 : r.1 > n ∨ r.2 > n
    · rw [if_pos h1, error_bind, if_neg]
      intro h; have := h r (by simp); omega
    rw [if_neg h1]
    by_cases h2 : r.1 = 0 ∨ r.2 = 0
    · rw [if_pos h2, error_bind, if_neg]
      intro h; have := h r (by simp); omega
    rw [if_neg h2, ok_bind, ih]
    by_cases h3 : ∀ r ∈ rows, (1 ≤ r.1 ∧ r.1 ≤ n) ∧ (1 ≤ r.2 ∧ r.2 ≤ n)
    · rw [if_pos h3, if_pos]
      · simp only [List.flatMap_cons, List.append_assoc, List.length_cons]
        congr 2
        omega
      · intro r' hr'
        rcases List.mem_cons.1 hr' with h | h
        · subst h; omega
        · exact h3 r' h
    · rw [if_neg h3, if_neg]
      intro h; exact h3 (fun r' hr' => h r' (List.mem_cons_of_mem _ hr'))

theorem flat_length (rows : List (Nat × Nat)) :
    (rows.flatMap (fun r => [(r.1, r.2), (r.2, r.1)])).length = 2 * rows.length := by
  induction rows with
  | nil => rfl
  | cons r rows ih => simp only [List.flatMap_cons, List.length_append, List.length_cons, ih]; simp; omega

theorem rows_describe {rows : List (Nat × Nat)} {n : Nat} (h : ValidRows rows n) :
    Describes (PyGraph.selfLoops n ++ rows.flatMap (fun r => [(r.1, r.2), (r.2, r.1)])) n
      (ofPairs rows) := by
  have hm : ∀ e : Nat × Nat, e ∈ rows.flatMap (fun r => [(r.1, r.2), (r.2, r.1)]) ↔
      (e.1, e.2) ∈ rows ∨ (e.2, e.1) ∈ rows := by
    intro e
    rw [List.mem_flatMap]
    constructor
    · rintro ⟨r, hr, he⟩
      simp only [List.mem_cons, List.not_mem_nil, or_false] at he
      rcases he with rfl | rfl
      · exact Or.inl hr
      · exact Or.inr hr
    · rintro (he | he)
      · exact ⟨_, he, by simp⟩
      · exact ⟨_, he, by simp⟩
  refine ⟨?_, ?_, ?_⟩
  · intro u v hu hv
    rw [List.mem_append, mem_selfLoops, hm]
    simp only [ofPairs]
    constructor
    · rintro (h1 | h1)
      · exact Or.inl h1.1
      · by_cases huv : u = v
        · exact Or.inl huv
        · exact Or.inr ⟨huv, h1⟩
    · rintro (h1 | h1)
      · exact Or.inl ⟨h1, hu⟩
      · exact Or.inr h1.2
  · intro e he
    rw [List.mem_append, mem_selfLoops, hm] at he
    rcases he with h1 | h1 | h1
    · omega
    · have := h _ h1; simp only at this; omega
    · have := h _ h1; simp only at this; omega
  · rintro u v ⟨_, h1 | h1⟩
    · exact h _ h1
    · exact ⟨(h _ h1).2, (h _ h1).1⟩

theorem fromEdgelist_spec (argLR : Bool) (cap : Nat) {rows : List (Nat × Nat)} {n : Nat}
    (hn : n < 2 ^ 31) (hlen : rows.length < 2 ^ 56) :
    (ValidRows rows n → ∃ pg G, PyGraph.fromEdgelist argLR cap rows n = .ok pg ∧
      LoadedAs cap n rows.length (ofPairs rows) pg G) ∧
    (¬ ValidRows rows n → PyGraph.fromEdgelist argLR cap rows n = .error .throw) := by
  unfold PyGraph.fromEdgelist
  rw [rows_fold]
  constructor
  · intro h
    rw [if_pos (show ∀ r ∈ rows, (1 ≤ r.1 ∧ r.1 ≤ n) ∧ (1 ≤ r.2 ∧ r.2 ≤ n) from h), ok_bind]
    simp only
    have hl : (PyGraph.selfLoops n ++ rows.flatMap (fun r => [(r.1, r.2), (r.2, r.1)])).length =
        n + 1 + 2 * rows.length := by
      rw [List.length_append, selfLoops_length, flat_length]
    rw [if_neg (by omega)]
    have := loadGraph_spec (rows_describe h) hn (by
      rw [hl]
      have : (2 : Nat) ^ 31 + 1 + 2 * 2 ^ 56 < 2 ^ 58 := by decide
      omega) argLR cap (0 + rows.length)
    rw [Nat.zero_add] at this ⊢
    exact this
  · intro h
    rw [if_neg (show ¬ ∀ r ∈ rows, (1 ≤ r.1 ∧ r.1 ≤ n) ∧ (1 ≤ r.2 ∧ r.2 ≤ n) from h), error_bind]

/-! ## `from_matrix` -/

/-- The edge array built from the first entries of a matrix. -/
theorem matrix_row (r : Nat) (A : Nat → Nat → Bool) (i : Nat) (s : Edges × Nat) :
    ∀ k, k ≤ r → ∃ s', forRange 0 k (fun j (s : Edges × Nat) =>
        if A i j = true ∨ i = j then
          .ok (s.1 ++ [(i + 1, j + 1), (j + 1, i + 1)], s.2 + if i ≠ j then 1 else 0)
        else .ok s) s = .ok s' ∧
      s'.2 = s.2 + ((Finset.range k).filter fun j => A i j = true ∧ i ≠ j).card ∧
      s'.1.length ≤ s.1.length + 2 * k ∧
      ∀ e, e ∈ s'.1 ↔ e ∈ s.1 ∨ ∃ j, j < k ∧ (A i j = true ∨ i = j) ∧
        (e = (i + 1, j + 1) ∨ e = (j + 1, i + 1)) := by
  intro k hk
  obtain ⟨s', h1, h2⟩ := forRange_rule (lo := 0) (hi := k) (s := s)
    (body := fun j (s : Edges × Nat) =>
        if A i j = true ∨ i = j then
          .ok (s.1 ++ [(i + 1, j + 1), (j + 1, i + 1)], s.2 + if i ≠ j then 1 else 0)
        else .ok s)
    (fun k s' => s'.2 = s.2 + ((Finset.range k).filter fun j => A i j = true ∧ i ≠ j).card ∧
      s'.1.length ≤ s.1.length + 2 * k ∧
      ∀ e, e ∈ s'.1 ↔ e ∈ s.1 ∨ ∃ j, j < k ∧ (A i j = true ∨ i = j) ∧
        (e = (i + 1, j + 1) ∨ e = (j + 1, i + 1)))
    (Nat.zero_le _) (by simp)
    (by
      rintro j t _ hj ⟨i1, i2, i3⟩
      by_cases hc : A i j = true ∨ i = j
      · rw [if_pos hc]
        refine ⟨_, rfl, ?_, ?_, ?_⟩
        · simp only
          rw [i1, card_filter_range_succ, Nat.add_assoc]
          congr 2
          apply if_congr _ rfl rfl
          constructor
          · intro h; exact ⟨hc.resolve_right h, h⟩
          · intro h; exact h.2
        · simp; omega
        · intro e
          simp only [List.mem_append, List.mem_cons, List.not_mem_nil, or_false, i3]
          constructor
          · rintro ((h | ⟨j', a, b, c⟩) | h)
            · exact Or.inl h
            · exact Or.inr ⟨j', by omega, b, c⟩
            · exact Or.inr ⟨j, by omega, hc, h⟩
          · rintro (h | ⟨j', a, b, c⟩)
            · exact Or.inl (Or.inl h)
            · by_cases hjj : j' = j
              · subst hjj; exact Or.inr c
              · exact Or.inl (Or.inr ⟨j', by omega, b, c⟩)
      · rw [if_neg hc]
        refine ⟨_, rfl, ?_, by omega, ?_⟩
        · rw [i1, card_filter_range_succ, if_neg (fun h => hc (Or.inl h.1))]; rfl
        · intro e
          rw [i3]
          constructor
          · rintro (h | ⟨j', a, b, c⟩)
            · exact Or.inl h
            · exact Or.inr ⟨j', by omega, b, c⟩
          · rintro (h | ⟨j', a, b, c⟩)
            · exact Or.inl h
            · by_cases hjj : j' = j
              · subst hjj; exact absurd b hc
              · exact Or.inr ⟨j', by omega, b, c⟩)
  exact ⟨s', h1, h2⟩

/-- Number of off-diagonal entries that are set. -/
def offDiag (r : Nat) (A : Nat → Nat → Bool) : Nat :=
  ∑ i ∈ Finset.range r, ((Finset.range r).filter fun j => A i j = true ∧ i ≠ j).card

/-- The edge array built from a matrix. -/
theorem matrix_edges {r : Nat} {A : Nat → Nat → Bool} (hr : r < 2 ^ 28) :
    ∃ edges : Edges, forRange 0 r (fun i s =>
        forRange 0 r (fun j (s : Edges × Nat) =>
          if A i j = true ∨ i = j then
            .ok (s.1 ++ [(i + 1, j + 1), (j + 1, i + 1)], s.2 + if i ≠ j then 1 else 0)
          else .ok s) s) ([(0, 0)], 0) = .ok (edges, offDiag r A) ∧
      edges.length ≠ 0 ∧ edges.length < 2 ^ 58 ∧ Describes edges r (ofMatrix r A) := by
  obtain ⟨⟨edges, m⟩, h1, h2, h3, h4⟩ := forRange_rule (lo := 0) (hi := r) (s := ([(0, 0)], 0))
    (body := fun i s =>
      forRange 0 r (fun j (s : Edges × Nat) =>
        if A i j = true ∨ i = j then
          .ok (s.1 ++ [(i + 1, j + 1), (j + 1, i + 1)], s.2 + if i ≠ j then 1 else 0)
        else .ok s) s)
    (fun k s => s.2 = ∑ i ∈ Finset.range k,
        ((Finset.range r).filter fun j => A i j = true ∧ i ≠ j).card ∧
      s.1.length ≤ 1 + k * (2 * r) ∧
      ∀ e, e ∈ s.1 ↔ e = (0, 0) ∨ ∃ i j, i < k ∧ j < r ∧ (A i j = true ∨ i = j) ∧
        (e = (i + 1, j + 1) ∨ e = (j + 1, i + 1)))
    (Nat.zero_le _) (by simp)
    (by
      rintro i s _ hi ⟨i1, i2, i3⟩
      obtain ⟨s', a1, a2, a3, a4⟩ := matrix_row r A i s r (Nat.le_refl _)
      refine ⟨s', a1, ?_, ?_, ?_⟩
      · rw [a2, i1, Finset.sum_range_succ]
      · rw [Nat.add_mul, Nat.one_mul]; omega
      · intro e
        rw [a4, i3]
        constructor
        · rintro ((h | ⟨i', j, a, b, c⟩) | ⟨j, a, b⟩)
          · exact Or.inl h
          · exact Or.inr ⟨i', j, by omega, b, c⟩
          · exact Or.inr ⟨i, j, by omega, a, b⟩
        · rintro (h | ⟨i', j, a, b, c⟩)
          · exact Or.inl (Or.inl h)
          · by_cases hii : i' = i
            · subst hii; exact Or.inr ⟨j, b, c⟩
            · exact Or.inl (Or.inr ⟨i', j, by omega, b, c⟩))
  simp only at h2 h3 h4
  have h0 : (0, 0) ∈ edges := (h4 _).2 (Or.inl rfl)
  have hD : Describes edges r (ofMatrix r A) := by
    refine ⟨?_, ?_, ?_⟩
    · intro u v hu hv
      rw [h4]
      simp only [ofMatrix]
      constructor
      · rintro (h | ⟨i, j, a, b, c, d | d⟩)
        · left; rw [Prod.mk.injEq] at h; omega
        · rw [Prod.mk.injEq] at d
          by_cases huv : u = v
          · exact Or.inl huv
          · obtain ⟨rfl, rfl⟩ := d
            refine Or.inr ⟨huv, by omega, by omega, Or.inl ?_⟩
            rcases c with c | c
            · simpa using c
            · omega
        · rw [Prod.mk.injEq] at d
          by_cases huv : u = v
          · exact Or.inl huv
          · obtain ⟨rfl, rfl⟩ := d
            refine Or.inr ⟨huv, by omega, by omega, Or.inr ?_⟩
            rcases c with c | c
            · simpa using c
            · omega
      · rintro (h | ⟨h, a, b, c | c⟩)
        · subst h
          by_cases hu0 : u = 0
          · left; rw [hu0]
          · right
            exact ⟨u - 1, u - 1, by omega, by omega, Or.inr rfl, Or.inl (by
              rw [Prod.mk.injEq]; omega)⟩
        · right
          exact ⟨u - 1, v - 1, by omega, by omega, Or.inl c, Or.inl (by rw [Prod.mk.injEq]; omega)⟩
        · right
          exact ⟨v - 1, u - 1, by omega, by omega, Or.inl c, Or.inr (by rw [Prod.mk.injEq]; omega)⟩
    · intro e he
      rw [h4] at he
      rcases he with rfl | ⟨i, j, a, b, _, rfl | rfl⟩
      · exact ⟨Nat.zero_le _, Nat.zero_le _⟩
      · simp only; omega
      · simp only; omega
    · rintro u v ⟨_, h1, h2, _⟩; exact ⟨h1, h2⟩
  refine ⟨edges, by rw [h1, h2]; rfl, ?_, ?_, hD⟩
  · intro hl
    rw [List.length_eq_zero_iff.1 hl] at h0
    simp at h0
  · have hmul : r * (2 * r) ≤ 2 ^ 28 * 2 ^ 29 :=
      Nat.mul_le_mul (by omega) (by
        have : (2 : Nat) ^ 29 = 2 * 2 ^ 28 := by decide
        omega)
    have : 1 + (2 : Nat) ^ 28 * 2 ^ 29 < 2 ^ 58 := by decide
    omega

theorem fromMatrix_spec (argLR : Bool) (cap : Nat) {r : Nat} {A : Nat → Nat → Bool}
    (hr : r < 2 ^ 28) :
    ∃ pg G, PyGraph.fromMatrix argLR cap r r A = .ok pg ∧
      LoadedAs cap r (offDiag r A / 2) (ofMatrix r A) pg G := by
  obtain ⟨edges, h1, h2, h3, hD⟩ := matrix_edges (A := A) hr
  unfold PyGraph.fromMatrix
  rw [if_neg (by simp), h1, ok_bind]
  simp only
  rw [if_neg h2]
  exact loadGraph_spec hD (by
    have : (2 : Nat) ^ 28 < 2 ^ 31 := by decide
    omega) h3 argLR cap _

theorem fromMatrix_fail (argLR : Bool) (cap : Nat) {r c : Nat} {A : Nat → Nat → Bool} (h : r ≠ c) :
    PyGraph.fromMatrix argLR cap r c A = .error .throw := by
  unfold PyGraph.fromMatrix; rw [if_pos h]

end CM
