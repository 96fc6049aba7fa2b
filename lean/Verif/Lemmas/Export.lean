import Verif.Lemmas.AdjList

/-! # The exports (graph.cpp:148-165, pygraph.cpp:235-310) -/

namespace CM

open Spec Graph

variable {G : Graph} {n : Nat} {S : SimpleGraph Nat}

theorem spec_nbr (w : Str G) (hO : Of G n S) {i k : Nat} (hi : i ≤ n) (hk : k < (G.V i).N)
    (hne : k ≠ (G.V i).spos) : S.Adj i (G.e i k) := by
  have hiv : i < G.nVert := by have := hO.nv; omega
  rcases (hO.adj i _ hi).1 ⟨k, hk, rfl⟩ with h | h
  · exfalso
    have hs := w.self i hiv
    have hsp := w.spos i hiv
    rcases Nat.lt_or_gt_of_ne hne with hlt | hlt
    · have := w.sorted i hiv k _ hlt hsp; omega
    · have := w.sorted i hiv _ k hlt hk; omega
  · exact h

theorem spec_pos (w : Str G) (hO : Of G n S) {i x : Nat} (hi : i ≤ n) (h : S.Adj i x) :
    ∃ k, k < (G.V i).N ∧ k ≠ (G.V i).spos ∧ G.e i k = x := by
  have hiv : i < G.nVert := by have := hO.nv; omega
  obtain ⟨k, hk, he⟩ := (hO.adj i x hi).2 (Or.inr h)
  refine ⟨k, hk, ?_, he⟩
  rintro rfl
  rw [w.self i hiv] at he
  exact h.ne he

theorem sendRow (w : Str G) (hO : Of G n S) {i : Nat} (hi : i ≤ n) (acc : List (Nat × Nat))
    (hp : acc.Pairwise lexLt) (hlt : ∀ e ∈ acc, e.1 < i) :
    ∃ acc', forRange ((G.V i).spos + 1) (G.V i).N (fun k acc => do
        let x ← G.nbr (G.V i) k
        .ok (acc ++ [(i, x)])) acc = .ok acc' ∧ acc'.Pairwise lexLt ∧
      ∀ e, e ∈ acc' ↔ e ∈ acc ∨ (e.1 = i ∧ i < e.2 ∧ S.Adj i e.2) := by
  have hiv : i < G.nVert := by have := hO.nv; omega
  have hsp := w.spos i hiv
  obtain ⟨acc', h1, h2, h3⟩ := forRange_rule (lo := (G.V i).spos + 1) (hi := (G.V i).N) (s := acc)
    (body := fun k acc => do
        let x ← G.nbr (G.V i) k
        .ok (acc ++ [(i, x)]))
    (fun k acc' => acc'.Pairwise lexLt ∧
      ∀ e, e ∈ acc' ↔ e ∈ acc ∨ (e.1 = i ∧ ∃ j, (G.V i).spos < j ∧ j < k ∧ e.2 = G.e i j))
    (by omega)
    ⟨hp, by
      intro e
      constructor
      · exact Or.inl
      · rintro (h | ⟨_, j, _, _, _⟩)
        · exact h
        · omega⟩
    (by
      rintro k s hk hk' ⟨i1, i2⟩
      rw [w.nbr_ok hiv hk', ok_bind]
      refine ⟨_, rfl, ?_, ?_⟩
      · rw [List.pairwise_append]
        refine ⟨i1, by simp, ?_⟩
        intro e he e' he'
        simp only [List.mem_cons, List.not_mem_nil, or_false] at he'
        subst he'
        rcases (i2 e).1 he with h | ⟨h, j, _, h2, h3⟩
        · exact Or.inl (hlt e h)
        · right
          refine ⟨h, ?_⟩
          rw [h3]
          exact w.sorted i hiv j k h2 hk'
      · rintro ⟨x, y⟩
        simp only [List.mem_append, i2, List.mem_cons, List.not_mem_nil, or_false, Prod.mk.injEq]
        constructor
        · rintro ((h | ⟨h, j, a, b, c⟩) | ⟨h, h'⟩)
          · exact Or.inl h
          · exact Or.inr ⟨h, j, a, by omega, c⟩
          · exact Or.inr ⟨h, k, by omega, by omega, h'⟩
        · rintro (h | ⟨h, j, a, b, c⟩)
          · exact Or.inl (Or.inl h)
          · by_cases hjk : j = k
            · subst hjk; exact Or.inr ⟨h, c⟩
            · exact Or.inl (Or.inr ⟨h, j, a, by omega, c⟩))
  refine ⟨acc', h1, h2, ?_⟩
  intro e
  rw [h3]
  have hs := w.self i hiv
  constructor
  · rintro (h | ⟨h, j, a, b, c⟩)
    · exact Or.inl h
    · refine Or.inr ⟨h, ?_, ?_⟩
      · have := w.sorted i hiv _ j a b; omega
      · rw [c]; exact spec_nbr w hO hi b (by omega)
  · rintro (h | ⟨h, a, b⟩)
    · exact Or.inl h
    · obtain ⟨k, hk, hne, he⟩ := spec_pos w hO hi b
      refine Or.inr ⟨h, k, ?_, hk, he.symm⟩
      rcases Nat.lt_or_gt_of_ne hne with hlt' | hlt'
      · have := w.sorted i hiv k _ hlt' hsp; omega
      · exact hlt'

/-- graph.cpp:148-155: each edge once, as (smaller, larger), in lexicographic order. -/
theorem sendData_spec (w : Str G) (hO : Of G n S) :
    ∃ es, G.sendData = .ok es ∧ es.Pairwise lexLt ∧
      ∀ e, e ∈ es ↔ e.1 < e.2 ∧ S.Adj e.1 e.2 := by
  have hnv := hO.nv
  unfold sendData
  obtain ⟨es, h1, h2, h3⟩ := forRange_rule (lo := 0) (hi := G.nVert) (s := ([] : List (Nat × Nat)))
    (body := fun i acc => do
      let V ← G.vtx i
      forRange (V.spos + 1) V.N (fun k acc => do
        let x ← G.nbr V k
        .ok (acc ++ [(i, x)])) acc)
    (fun k acc => acc.Pairwise lexLt ∧ ∀ e, e ∈ acc ↔ e.1 < k ∧ e.1 < e.2 ∧ S.Adj e.1 e.2)
    (Nat.zero_le _) (by simp)
    (by
      rintro i s _ hi ⟨i1, i2⟩
      obtain ⟨s', a1, a2, a3⟩ := sendRow w hO (show i ≤ n by omega) s i1 (fun e he => ((i2 e).1 he).1)
      rw [w.vtx_ok hi, ok_bind]
      refine ⟨s', a1, a2, ?_⟩
      intro e
      rw [a3, i2]
      constructor
      · rintro (⟨a, b⟩ | ⟨a, b⟩)
        · exact ⟨by omega, b⟩
        · rw [a]; exact ⟨by omega, b⟩
      · rintro ⟨a, b⟩
        by_cases he : e.1 = i
        · right; rw [he] at b; exact ⟨he, b⟩
        · exact Or.inl ⟨by omega, b⟩)
  refine ⟨es, h1, h2, ?_⟩
  intro e
  rw [h3]
  constructor
  · exact fun h => h.2
  · intro h; exact ⟨by have := (hO.rng _ _ h.2).1; omega, h⟩

/-- graph.cpp:158-165: the neighbours of a vertex. -/
theorem vertexData_sorted (w : Str G) {i : Nat} (hiv : i < G.nVert) :
    ∃ l, G.vertexData i = .ok l ∧ l.Pairwise (· < ·) ∧ ∀ x, x ∈ l ↔ G.nadj i x ∧ x ≠ i := by
  unfold vertexData
  rw [w.vtx_ok hiv, ok_bind]
  obtain ⟨l, h1, h2, h3⟩ := forRange_rule (lo := 0) (hi := (G.V i).N) (s := ([] : List Nat))
    (body := fun j acc => do
      let x ← G.nbr (G.V i) j
      .ok (acc ++ [x]))
    (fun k acc => acc.Pairwise (· < ·) ∧ ∀ x, x ∈ acc ↔ ∃ j, j < k ∧ G.e i j = x)
    (Nat.zero_le _) (by simp)
    (by
      rintro k s _ hk ⟨i1, i2⟩
      rw [w.nbr_ok hiv hk, ok_bind]
      refine ⟨_, rfl, ?_, ?_⟩
      · rw [List.pairwise_append]
        refine ⟨i1, by simp, ?_⟩
        intro x hx y hy
        simp only [List.mem_cons, List.not_mem_nil, or_false] at hy
        obtain ⟨j, hj, rfl⟩ := (i2 x).1 hx
        rw [hy]
        exact w.sorted i hiv j k hj hk
      · intro x
        simp only [List.mem_append, i2, List.mem_cons, List.not_mem_nil, or_false]
        constructor
        · rintro (⟨j, a, b⟩ | h)
          · exact ⟨j, by omega, b⟩
          · exact ⟨k, by omega, h.symm⟩
        · rintro ⟨j, a, b⟩
          by_cases hjk : j = k
          · subst hjk; exact Or.inr b.symm
          · exact Or.inl ⟨j, by omega, b⟩)
  rw [h1, ok_bind]
  rw [if_pos ((h3 i).2 ⟨_, w.spos i hiv, w.self i hiv⟩)]
  refine ⟨_, rfl, h2.sublist List.filter_sublist, ?_⟩
  intro x
  rw [List.mem_filter, h3]
  simp [nadj]

theorem vertexData_raw (w : Str G) {i : Nat} (hiv : i < G.nVert) :
    ∃ l, G.vertexData i = .ok l ∧ ∀ x, x ∈ l ↔ G.nadj i x ∧ x ≠ i := by
  obtain ⟨l, h1, _, h2⟩ := vertexData_sorted w hiv
  exact ⟨l, h1, h2⟩

theorem vertexData_spec (w : Str G) (hO : Of G n S) {i : Nat} (hi : i ≤ n) :
    ∃ l, G.vertexData i = .ok l ∧ l.Pairwise (· < ·) ∧ ∀ x, x ∈ l ↔ S.Adj i x := by
  obtain ⟨l, h1, h2, h3⟩ := vertexData_sorted w (show i < G.nVert by have := hO.nv; omega)
  refine ⟨l, h1, h2, ?_⟩
  intro x
  rw [h3]
  constructor
  · rintro ⟨h, h'⟩
    rcases (hO.adj i x hi).1 h with h4 | h4
    · exact absurd h4 h'
    · exact h4
  · intro h
    exact ⟨(hO.adj i x hi).2 (Or.inr h), h.ne.symm⟩

/-! ## `to_edgelist` -/

theorem writeRows : ∀ (es : List (Nat × Nat)) (pre rest : List (Option (Nat × Nat))),
    es.foldlM (fun (s : List (Option (Nat × Nat)) × Nat) e => do
      let rows ← wr s.1 s.2 (some e)
      (.ok (rows, s.2 + 1) : M (List (Option (Nat × Nat)) × Nat))) (pre ++ rest, pre.length) =
    if es.length ≤ rest.length then
      .ok (pre ++ es.map some ++ rest.drop es.length, pre.length + es.length)
    else .error .ub := by
  intro es
  induction es with
  | nil => intro pre rest; simp
  | cons e es ih =>
    intro pre rest
    rw [List.foldlM_cons]
    cases rest with
    | nil => simp [wr]
    | cons r rest =>
      rw [wr_ok _ (by simp), ok_bind, ok_bind]
      have := ih (pre ++ [some e]) rest
      simp only [List.length_append, List.length_cons, List.length_nil, List.append_assoc,
        List.cons_append, List.nil_append] at this
      simp only [List.set_append_right _ _ (Nat.le_refl _), Nat.sub_self, List.set_cons_zero]
      rw [Nat.zero_add] at this
      rw [this]
      simp only [List.length_cons, Nat.add_le_add_iff_right, List.map_cons, List.drop_succ_cons,
        List.append_assoc, List.cons_append]
      congr 3
      omega

/-- A Python object that holds the graph `S` on `1 .. n`. -/
structure Holds (pg : PyGraph) (n : Nat) (S : SimpleGraph Nat) (G : Graph) : Prop where
  g : pg.G = some G
  nv : pg.nvert = n
  str : Str G
  of : Of G n S

theorem Holds.loaded {pg : PyGraph} (h : Holds pg n S G) (h0 : n ≠ 0) :
    pg.checkLoaded = some G := by
  unfold PyGraph.checkLoaded
  rw [h.nv, if_neg h0, h.g]

theorem PyOk.holds {pg : PyGraph} (h : PyOk pg n S G) : Holds pg n S G :=
  ⟨h.g, h.nv, h.ok.wf.str, h.of⟩

theorem LoadedAs.holds {cap m : Nat} {pg : PyGraph} (h : LoadedAs cap n m S pg G) :
    Holds pg n S G :=
  ⟨by rw [h.eq], by rw [h.eq], h.str, h.of⟩

theorem toEdgelist_spec {pg : PyGraph} (h : Holds pg n S G) (h0 : n ≠ 0) :
    ∃ es : List (Nat × Nat), es.Pairwise lexLt ∧ (∀ e, e ∈ es ↔ e.1 < e.2 ∧ S.Adj e.1 e.2) ∧
      pg.toEdgelist = if es.length ≤ pg.nedges then
        .ok (es.map some ++ List.replicate (pg.nedges - es.length) none) else .error .ub := by
  obtain ⟨es, h1, h2, h3⟩ := sendData_spec h.str h.of
  refine ⟨es, h2, h3, ?_⟩
  unfold PyGraph.toEdgelist
  rw [h.loaded h0]
  simp only
  rw [h1, ok_bind]
  have := writeRows es [] (List.replicate pg.nedges none)
  simp only [List.nil_append, List.length_nil] at this
  rw [this]
  simp only [List.length_replicate]
  split <;> simp

/-! ## `to_matrix` -/

theorem wr2_spec {m : List (List Bool)} {k i j : Nat} (hl : m.length = k)
    (hr : ∀ i, i < k → (m.getD i []).length = k) (hi : i < k) (hj : j < k) (b : Bool) :
    ∃ m', PyGraph.wr2 m i j b = .ok m' ∧ m'.length = k ∧
      (∀ i, i < k → (m'.getD i []).length = k) ∧
      ∀ x y, (m'.getD x []).getD y false = if x = i ∧ y = j then b else (m.getD x []).getD y false := by
  unfold PyGraph.wr2
  rw [rd_getD [] (by omega), ok_bind, wr_ok _ (by rw [hr i hi]; exact hj), ok_bind,
    wr_ok _ (by omega)]
  refine ⟨_, rfl, by simpa using hl, ?_, ?_⟩
  · intro x hx
    rw [getD_set (by omega)]
    split
    · simpa using hr i hi
    · exact hr x hx
  · intro x y
    rw [getD_set (by omega)]
    by_cases hx : x = i
    · rw [if_pos hx]
      rw [getD_set (by rw [hr i hi]; exact hj)]
      by_cases hy : y = j
      · simp [hx, hy]
      · simp [hx, hy]
    · simp [hx]

/-- Fold with checks, as a rule over the part of the list already processed. -/
theorem foldlM_rule' {α σ : Type} (P : List α → σ → Prop) (f : σ → α → M σ) (l : List α) (s : σ)
    (h0 : P [] s)
    (hs : ∀ done a s, a ∈ l → P done s → ∃ s', f s a = .ok s' ∧ P (done ++ [a]) s') :
    ∃ s', l.foldlM f s = .ok s' ∧ P l s' := by
  have key : ∀ (rest done : List α) (s : σ), (∀ a ∈ rest, a ∈ l) → P done s →
      ∃ s', rest.foldlM f s = .ok s' ∧ P (done ++ rest) s' := by
    intro rest
    induction rest with
    | nil => intro done s _ h; exact ⟨s, rfl, by simpa using h⟩
    | cons a rest ih =>
      intro done s hm h
      obtain ⟨s1, h1, h2⟩ := hs done a s (hm a (by simp)) h
      obtain ⟨s2, h3, h4⟩ := ih (done ++ [a]) s1 (fun x hx => hm x (List.mem_cons_of_mem _ hx)) h2
      refine ⟨s2, ?_, by simpa using h4⟩
      rw [List.foldlM_cons, h1, ok_bind, h3]
  simpa using key l [] s (fun _ h => h) h0

theorem toMatrix_spec {pg : PyGraph} (h : Holds pg n S G) (h0 : n ≠ 0) (hn : n < 2 ^ 64) :
    ∃ m, pg.toMatrix = .ok m ∧ m.length = n ∧ (∀ i, i < n → (m.getD i []).length = n) ∧
      ∀ u v, (1 ≤ u ∧ u ≤ n) → (1 ≤ v ∧ v ≤ n) →
        ((m.getD (u - 1) []).getD (v - 1) false = true ↔ S.Adj u v) := by
  obtain ⟨es, h1, _, h3⟩ := sendData_spec h.str h.of
  unfold PyGraph.toMatrix
  rw [h.loaded h0]
  simp only
  rw [h1, ok_bind, h.nv]
  obtain ⟨m, a1, a2, a3, a4⟩ := foldlM_rule'
    (fun l (m : List (List Bool)) => m.length = n ∧ (∀ i, i < n → (m.getD i []).length = n) ∧
      ∀ x y, (m.getD x []).getD y false = true ↔
        ∃ e, e ∈ l ∧ (1 ≤ e.1 ∧ 1 ≤ e.2) ∧
          ((x = e.1 - 1 ∧ y = e.2 - 1) ∨ (x = e.2 - 1 ∧ y = e.1 - 1)))
    (fun m (e : Nat × Nat) => do
      let m ← PyGraph.wr2 m (usub e.1 1) (usub e.2 1) true
      PyGraph.wr2 m (usub e.2 1) (usub e.1 1) true) es
    (List.replicate n (List.replicate n false))
    (by
      refine ⟨by simp, ?_, ?_⟩
      · intro i hi; simp [List.getD_eq_getElem?_getD, List.getElem?_replicate, hi]
      · intro x y
        constructor
        · intro hx
          exfalso
          simp only [List.getD_eq_getElem?_getD, List.getElem?_replicate] at hx
          by_cases hxn : x < n
          · simp only [hxn, if_true, Option.getD_some, List.getElem?_replicate] at hx
            split at hx <;> simp at hx
          · simp [hxn] at hx
        · rintro ⟨e, a, _⟩; simp at a)
    (by
      rintro l e m he ⟨i1, i2, i4⟩
      have hadj := (h3 e).1 he
      have hr := h.of.rng _ _ hadj.2
      rw [usub_eq (by omega) (by omega), usub_eq (by omega) (by omega)]
      obtain ⟨m1, b1, b2, b3, b4⟩ := wr2_spec i1 i2 (show e.1 - 1 < n by omega)
        (show e.2 - 1 < n by omega) true
      obtain ⟨m2, c1, c2, c3, c4⟩ := wr2_spec b2 b3 (show e.2 - 1 < n by omega)
        (show e.1 - 1 < n by omega) true
      rw [b1, ok_bind]
      refine ⟨m2, c1, c2, c3, ?_⟩
      intro x y
      rw [c4, b4]
      constructor
      · intro hx
        by_cases k1 : x = e.2 - 1 ∧ y = e.1 - 1
        · exact ⟨e, by simp, by omega, Or.inr k1⟩
        rw [if_neg k1] at hx
        by_cases k2 : x = e.1 - 1 ∧ y = e.2 - 1
        · exact ⟨e, by simp, by omega, Or.inl k2⟩
        rw [if_neg k2] at hx
        obtain ⟨e', d1, d2⟩ := (i4 x y).1 hx
        exact ⟨e', List.mem_append_left _ d1, d2⟩
      · rintro ⟨e', d1, d2, d3⟩
        by_cases k1 : x = e.2 - 1 ∧ y = e.1 - 1
        · rw [if_pos k1]
        rw [if_neg k1]
        by_cases k2 : x = e.1 - 1 ∧ y = e.2 - 1
        · rw [if_pos k2]
        rw [if_neg k2]
        rcases List.mem_append.1 d1 with d | d
        · exact (i4 x y).2 ⟨e', d, d2, d3⟩
        · simp only [List.mem_cons, List.not_mem_nil, or_false] at d
          subst d
          rcases d3 with d3 | d3
          · exact absurd d3 k2
          · exact absurd d3 k1)
  refine ⟨m, a1, a2, a3, ?_⟩
  intro u v hu hv
  rw [a4]
  constructor
  · rintro ⟨e, b1, b2, b3⟩
    have hadj := ((h3 e).1 b1).2
    rcases b3 with b3 | b3
    · rw [show u = e.1 by omega, show v = e.2 by omega]; exact hadj
    · rw [show u = e.2 by omega, show v = e.1 by omega]; exact hadj.symm
  · intro huv
    rcases Nat.lt_or_gt_of_ne huv.ne with hlt | hlt
    · exact ⟨(u, v), (h3 _).2 ⟨hlt, huv⟩, ⟨hu.1, hv.1⟩, Or.inl ⟨rfl, rfl⟩⟩
    · exact ⟨(v, u), (h3 _).2 ⟨hlt, huv.symm⟩, ⟨hv.1, hu.1⟩, Or.inr ⟨rfl, rfl⟩⟩

/-! ## `to_adjlist` -/

theorem mem_setInsert {x y : Nat} : ∀ {l : List Nat}, y ∈ PyGraph.setInsert x l ↔ y = x ∨ y ∈ l := by
  intro l
  induction l with
  | nil => simp [PyGraph.setInsert]
  | cons a l ih =>
    unfold PyGraph.setInsert
    split
    · simp
    · split
      · rename_i h; subst h; simp
      · simp only [List.mem_cons, ih]
        constructor
        · rintro (h | h | h)
          · exact Or.inr (Or.inl h)
          · exact Or.inl h
          · exact Or.inr (Or.inr h)
        · rintro (h | h | h)
          · exact Or.inr (Or.inl h)
          · exact Or.inl h
          · exact Or.inr (Or.inr h)

theorem setInsert_sorted {x : Nat} : ∀ {l : List Nat}, l.Pairwise (· < ·) →
    (PyGraph.setInsert x l).Pairwise (· < ·) := by
  intro l
  induction l with
  | nil => intro _; simp [PyGraph.setInsert]
  | cons a l ih =>
    intro h
    rw [List.pairwise_cons] at h
    unfold PyGraph.setInsert
    split
    · rename_i hlt
      rw [List.pairwise_cons, List.pairwise_cons]
      refine ⟨?_, h.1, h.2⟩
      intro y hy
      rcases List.mem_cons.1 hy with rfl | hy
      · exact hlt
      · exact Nat.lt_trans hlt (h.1 y hy)
    · split
      · exact List.pairwise_cons.2 h
      · rw [List.pairwise_cons]
        refine ⟨?_, ih h.2⟩
        intro y hy
        rcases mem_setInsert.1 hy with rfl | hy
        · omega
        · exact h.1 y hy

theorem toAdjList_spec {pg : PyGraph} (h : Holds pg n S G) (h0 : n ≠ 0) :
    ∃ l, pg.toAdjList = .ok l ∧ l.length = n + 1 ∧
      ∀ u, u ≤ n → (l.getD u []).Pairwise (· < ·) ∧ ∀ v, v ∈ l.getD u [] ↔ S.Adj u v := by
  obtain ⟨es, h1, _, h3⟩ := sendData_spec h.str h.of
  unfold PyGraph.toAdjList
  rw [h.loaded h0]
  simp only
  rw [h1, ok_bind, h.nv]
  obtain ⟨m, a1, a2, a3⟩ := foldlM_rule'
    (fun d (l : List (List Nat)) => l.length = n + 1 ∧
      ∀ u, u ≤ n → (l.getD u []).Pairwise (· < ·) ∧
        ∀ v, v ∈ l.getD u [] ↔ (u, v) ∈ d ∨ (v, u) ∈ d)
    (fun l (e : Nat × Nat) => do
      let s ← rd l e.1
      let l ← wr l e.1 (PyGraph.setInsert e.2 s)
      let s ← rd l e.2
      wr l e.2 (PyGraph.setInsert e.1 s)) es
    (List.replicate (n + 1) [])
    (by
      refine ⟨by simp, ?_⟩
      intro u hu
      have : (List.replicate (n + 1) ([] : List Nat)).getD u [] = [] := by
        simp [List.getD_eq_getElem?_getD, List.getElem?_replicate, show u < n + 1 by omega]
      rw [this]; simp)
    (by
      rintro d e l he ⟨i1, i2⟩
      have hadj := (h3 e).1 he
      have hr := h.of.rng _ _ hadj.2
      rw [rd_getD [] (by omega), ok_bind, wr_ok _ (by omega), ok_bind,
        rd_getD [] (by rw [List.length_set]; omega), ok_bind,
        wr_ok _ (by rw [List.length_set]; omega)]
      refine ⟨_, rfl, by simpa using i1, ?_⟩
      intro u hu
      rw [getD_set (by rw [List.length_set]; omega), getD_set (by omega), getD_set (by omega),
        if_neg (show ¬ e.2 = e.1 by omega)]
      obtain ⟨j1, j2⟩ := i2 u hu
      by_cases k1 : u = e.2
      · rw [if_pos k1]
        rw [k1] at j1 j2
        refine ⟨setInsert_sorted j1, ?_⟩
        intro v
        rw [mem_setInsert, j2, k1]
        simp only [List.mem_append, List.mem_cons, List.not_mem_nil, or_false]
        constructor
        · rintro (hv | hv | hv)
          · right; right; rw [hv]
          · exact Or.inl (Or.inl hv)
          · exact Or.inr (Or.inl hv)
        · rintro ((hv | hv) | (hv | hv))
          · exact Or.inr (Or.inl hv)
          · exfalso
            have := congrArg Prod.fst hv
            simp only at this; omega
          · exact Or.inr (Or.inr hv)
          · left; rw [← hv]
      · rw [if_neg k1]
        by_cases k2 : u = e.1
        · rw [if_pos k2]
          rw [k2] at j1 j2
          refine ⟨setInsert_sorted j1, ?_⟩
          intro v
          rw [mem_setInsert, j2, k2]
          simp only [List.mem_append, List.mem_cons, List.not_mem_nil, or_false]
          constructor
          · rintro (hv | hv | hv)
            · left; right; rw [hv]
            · exact Or.inl (Or.inl hv)
            · exact Or.inr (Or.inl hv)
          · rintro ((hv | hv) | (hv | hv))
            · exact Or.inr (Or.inl hv)
            · left; rw [← hv]
            · exact Or.inr (Or.inr hv)
            · exfalso
              have := congrArg Prod.snd hv
              simp only at this; omega
        · rw [if_neg k2]
          refine ⟨j1, ?_⟩
          intro v
          rw [j2]
          simp only [List.mem_append, List.mem_cons, List.not_mem_nil, or_false]
          constructor
          · rintro (hv | hv)
            · exact Or.inl (Or.inl hv)
            · exact Or.inr (Or.inl hv)
          · rintro ((hv | hv) | (hv | hv))
            · exact Or.inl hv
            · exact absurd (congrArg Prod.fst hv) k2
            · exact Or.inr hv
            · exact absurd (congrArg Prod.snd hv) k1)
  refine ⟨m, a1, a2, ?_⟩
  intro u hu
  refine ⟨(a3 u hu).1, ?_⟩
  intro v
  rw [(a3 u hu).2, h3, h3]
  simp only
  constructor
  · rintro (hv | hv)
    · exact hv.2
    · exact hv.2.symm
  · intro huv
    rcases Nat.lt_or_gt_of_ne huv.ne with hlt | hlt
    · exact Or.inl ⟨hlt, huv⟩
    · exact Or.inr ⟨hlt, huv.symm⟩

end CM
