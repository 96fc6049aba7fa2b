import Verif.Lemmas.File
import Verif.Lemmas.Matching
import Verif.Lemmas.EdgeCount
import Verif.Props.Sample

/-!
# C07, C08, C44: files
-/

namespace CM

open Spec Graph Sample

/-! ## C07 -/

/-- What `C07_round_trip` and `C07_more_edges` share. -/
theorem round_trip {pg : PyGraph} {n : Nat} {S : SimpleGraph Nat} (h : Reached pg n S)
    (h0 : n ≠ 0) (hm : edgeCount S n ≤ pg.nedges) (h1 : edgeCount S n = 0 → pg.nedges = 0)
    (hb : pg.nedges < 2 ^ 56) (argLR : Bool) (cap : Nat) (look : Bool) :
    ∃ text pg', pg.toFile = .ok text ∧ PyGraph.fromFile argLR cap look text = .ok pg' ∧
      Loaded pg' n S ∧ pg'.nvert = pg.nvert ∧ pg'.nedges = pg.nedges := by
  have h60 : (2 : Nat) ^ 31 + 2 * 2 ^ 56 + 1 < 2 ^ 58 := by decide
  have h58 : (2 : Nat) ^ 58 < 2 ^ 60 := by decide
  have h64 : (2 : Nat) ^ 31 < 2 ^ 64 := by decide
  obtain ⟨hn, G, H⟩ := h.holds
  obtain ⟨text, es, e1, e2, e3, e4⟩ := toFile_spec H h0 (by omega)
  have hc := edgeCount_list H.of.rng (lexLt_nodup e3) e4
  have hrange : ∀ r ∈ es, 1 ≤ r.1 ∧ r.1 ≤ n ∧ 1 ≤ r.2 ∧ r.2 ≤ n := by
    intro r hr
    have := H.of.rng _ _ ((e4 r).1 hr).2
    omega
  obtain ⟨E, r1, r2⟩ := Mmio.reader_file (look := look) e2 (by omega)
    (by intro r hr; have := hrange r hr; omega) (by omega)
    (by
      intro hlt
      refine ⟨rfl, ?_⟩
      rintro rfl
      simp only [List.length_nil] at hc hlt
      have := h1 hc.symm
      omega)
  have hD := Mmio.entries_describe r2 (by intro r hr _ _ _; have := hrange r hr; omega)
  have hS : ofPairs (Mmio.kept n es) = S := by
    ext u v
    simp only [ofPairs, Mmio.kept, List.mem_filter, decide_eq_true_eq, e4]
    constructor
    · rintro ⟨_, h | h⟩
      · exact h.1.2
      · exact h.1.2.symm
    · intro huv
      refine ⟨huv.ne, ?_⟩
      have hr := H.of.rng _ _ huv
      rcases Nat.lt_or_gt_of_ne huv.ne with hlt | hlt
      · exact Or.inl ⟨⟨hlt, huv⟩, by omega, by omega⟩
      · exact Or.inr ⟨⟨hlt, huv.symm⟩, by omega, by omega⟩
  rw [hS] at hD
  obtain ⟨pg', p1, p2, p3⟩ := load_built hD hn (by
    rw [List.length_append, selfLoops_length, r2.length]; omega) argLR cap pg.nedges
  refine ⟨text, pg', e1, ?_, p2, ?_, p3⟩
  · unfold PyGraph.fromFile
    rw [r1, ok_bind]
    simp only
    rw [if_neg (selfLoops_ne n E)]
    exact p1
  · obtain ⟨_, _, H'⟩ := p2.holds
    rw [H'.nv, H.nv]

/-- **C07**: a graph whose `n_edges` is right, written with `to_file` and read back with
`from_file`, is the same graph, whatever was done to the object before.  (`argLR`, `cap` and
`look` are choices of the compiler and its library.) -/
theorem C07_round_trip {pg : PyGraph} {n : Nat} {S : SimpleGraph Nat} (h : Reached pg n S)
    (h0 : n ≠ 0) (hm : pg.nedges = edgeCount S n) (hb : pg.nedges < 2 ^ 56)
    (argLR : Bool) (cap : Nat) (look : Bool) :
    ∃ text pg', pg.toFile = .ok text ∧ PyGraph.fromFile argLR cap look text = .ok pg' ∧
      Loaded pg' n S ∧ pg'.nvert = pg.nvert ∧ pg'.nedges = pg.nedges :=
  round_trip h h0 (by omega) (by omega) hb argLR cap look

/-- **C07**: the same if `n_edges` is too large, as it may be after `from_edgelist` with
repeated rows, and the graph has an edge: the reader then finds the end of the file, and
stores the last edge once more. -/
theorem C07_more_edges {pg : PyGraph} {n : Nat} {S : SimpleGraph Nat} (h : Reached pg n S)
    (h0 : n ≠ 0) (he : ∃ u v, S.Adj u v) (hm : edgeCount S n ≤ pg.nedges)
    (hb : pg.nedges < 2 ^ 56) (argLR : Bool) (cap : Nat) (look : Bool) :
    ∃ text pg', pg.toFile = .ok text ∧ PyGraph.fromFile argLR cap look text = .ok pg' ∧
      Loaded pg' n S ∧ pg'.nvert = pg.nvert ∧ pg'.nedges = pg.nedges := by
  refine round_trip h h0 hm ?_ hb argLR cap look
  intro h1
  exfalso
  obtain ⟨u, v, huv⟩ := he
  obtain ⟨_, G, H⟩ := h.holds
  classical
  unfold edgeCount at h1
  rw [Finset.card_eq_zero, Finset.filter_eq_empty_iff] at h1
  have hr := H.of.rng _ _ huv
  rcases Nat.lt_or_gt_of_ne huv.ne with hlt | hlt
  · exact h1 (x := (u, v)) (by simp only [Finset.mem_product, Finset.mem_Icc]; omega)
      ⟨hlt, huv⟩
  · exact h1 (x := (v, u)) (by simp only [Finset.mem_product, Finset.mem_Icc]; omega)
      ⟨hlt, huv.symm⟩

/-- The file of the kite. -/
example : Reached kite 5 (ofPairs rows) ∧ kite.nedges = 7 ∧
    kite.toFile = .ok ("%% generated by cliquematch\n5 5 7\n1 2\n1 3\n1 4\n2 3\n2 4\n3 4\n4 5\n"
      ).toList ∧
    (∃ pg, PyGraph.fromFile true 64 true ("%% generated by cliquematch\n5 5 7\n1 2\n1 3\n1 4\n2 3\n2 4\n3 4\n4 5\n").toList =
      .ok pg ∧ pg.toEdgelist = kite.toEdgelist) := by
  refine ⟨Or.inl kite_usable.loaded, by decide +kernel, by decide +kernel, get PyGraph.new
    (PyGraph.fromFile true 64 true ("%% generated by cliquematch\n5 5 7\n1 2\n1 3\n1 4\n2 3\n2 4\n3 4\n4 5\n").toList), ?_⟩
  decide +kernel

namespace Sample

/-- A matrix with one entry above the diagonal and none below. -/
def oneSided (i j : Nat) : Bool := i = 0 ∧ j = 1

end Sample

/-- Why C07 needs the right number of edges: the matrix with one mark has `n_edges = 0`, and
its edge does not survive the round trip. -/
theorem C07_wrong_count : ∃ pg pg' : PyGraph,
    PyGraph.fromMatrix true 64 3 3 oneSided = .ok pg ∧
    pg.getVertexData 1 = .ok [2] ∧
    (pg.toFile >>= PyGraph.fromFile true 64 true) = .ok pg' ∧
    pg'.getVertexData 1 = .ok [] := by
  refine ⟨get PyGraph.new (PyGraph.fromMatrix true 64 3 3 oneSided),
    get PyGraph.new ((get PyGraph.new (PyGraph.fromMatrix true 64 3 3 oneSided)).toFile >>=
      PyGraph.fromFile true 64 true), ?_⟩
  decide +kernel

/-! ## C08 -/

/-- **C08** for well-formed files in which no vertex id is 0: `from_file` succeeds and the
graph is that of the rows with both ends among `1 .. n`; loops, repeated rows, rows with an
end above `n` and text after the announced number of rows are ignored. -/
theorem C08_well_formed {n m : Nat} {rows : List (Nat × Nat)} {rest text : List Char}
    (h : IsFile n m rows rest text) (hm : rows.length = m) (hn : n < 2 ^ 31) (hb : m < 2 ^ 56)
    (hr : ∀ r ∈ rows, (1 ≤ r.1 ∧ r.1 < 2 ^ 64) ∧ (1 ≤ r.2 ∧ r.2 < 2 ^ 64))
    (argLR : Bool) (cap : Nat) (look : Bool) :
    ∃ pg, PyGraph.fromFile argLR cap look text = .ok pg ∧ pg.nedges = m ∧
      Loaded pg n (ofPairs (rows.filter fun r => r.1 ≤ n ∧ r.2 ≤ n)) := by
  have h60 : (2 : Nat) ^ 31 + 2 * 2 ^ 56 + 1 < 2 ^ 58 := by decide
  have h58 : (2 : Nat) ^ 58 < 2 ^ 60 := by decide
  obtain ⟨E, r1, r2⟩ := Mmio.reader_file (look := look) h (by omega)
    (by intro r hr'; have := hr r hr'; omega) (by omega) (by omega)
  have hD := Mmio.entries_describe r2 (by intro r hr' _ _ _; have := hr r hr'; omega)
  obtain ⟨pg', p1, p2, p3⟩ := load_built hD hn (by
    rw [List.length_append, selfLoops_length, r2.length]; omega) argLR cap m
  refine ⟨pg', ?_, p3, p2⟩
  unfold PyGraph.fromFile
  rw [r1, ok_bind]
  simp only
  rw [if_neg (selfLoops_ne n E)]
  exact p1

/-- **C08** for every file, as far as it is true.  The full property: all neighbours are
among `1 .. n`.  Proved: whatever the file contains, if `from_file` succeeds, every vertex
has neighbours among `0 .. n` other than itself, the relation is symmetric, and if vertex 0
is nobody's neighbour the object is a properly loaded graph on `1 .. n`.  Missing, because
false (`C08_refuted`): that vertex 0 is nobody's neighbour.  The bounds concern the two
numbers in the header. -/
theorem C08_any_file_partial {argLR : Bool} {cap : Nat} {look : Bool} {text : List Char}
    {pg : PyGraph} (h : PyGraph.fromFile argLR cap look text = .ok pg) (hn : pg.nvert < 2 ^ 31)
    (hb : pg.nedges < 2 ^ 56) :
    ∃ N : Nat → List Nat, (∀ v, v ≤ pg.nvert → pg.getVertexData v = .ok (N v)) ∧
      (∀ v, v ≤ pg.nvert → ∀ x ∈ N v, x ≤ pg.nvert ∧ x ≠ v ∧ v ∈ N x) ∧
      (N 0 = [] → ∃ S, Loaded pg pg.nvert S) := by
  have h60 : (2 : Nat) ^ 31 + 2 * 2 ^ 56 + 1 < 2 ^ 58 := by decide
  have h58 : (2 : Nat) ^ 58 < 2 ^ 60 := by decide
  unfold PyGraph.fromFile at h
  obtain ⟨⟨n, m, edges⟩, h1, h⟩ := bind_eq_ok.1 h
  simp only at h
  split at h
  · cases h
  have hload := h
  unfold PyGraph.loadGraph at h
  obtain ⟨G, hG, h⟩ := bind_eq_ok.1 h
  cases h
  simp only at hn hb ⊢
  obtain ⟨E, rfl, hl, hE⟩ := Mmio.reader_any h1 (by omega)
  have hlen : (PyGraph.selfLoops n ++ E).length < 2 ^ 58 := by
    rw [List.length_append, selfLoops_length, hl]; omega
  have hrange : ∀ e ∈ PyGraph.selfLoops n ++ E, e.1 ≤ n ∧ e.2 ≤ n := by
    intro e he
    rcases List.mem_append.1 he with he | he
    · have := mem_selfLoops.1 he; omega
    · exact ⟨(hE e he).1, (hE e he).2.1⟩
  have hself : ∀ v, v ≤ n → (v, v) ∈ PyGraph.selfLoops n ++ E :=
    fun v hv => List.mem_append.2 (Or.inl (mem_selfLoops.2 ⟨rfl, hv⟩))
  have hsym : ∀ u v, (u, v) ∈ PyGraph.selfLoops n ++ E → (v, u) ∈ PyGraph.selfLoops n ++ E := by
    intro u v he
    rcases List.mem_append.1 he with he | he
    · have := mem_selfLoops.1 he
      simp only at this
      obtain ⟨rfl, h2⟩ := this
      exact List.mem_append.2 (Or.inl (mem_selfLoops.2 ⟨rfl, h2⟩))
    · exact List.mem_append.2 (Or.inr (hE _ he).2.2)
  obtain ⟨G', hG', B⟩ := ctor_spec argLR cap hn hlen hrange hself hsym
  rw [hG] at hG'
  cases hG'
  have hvd : ∀ v, v ≤ n → ∃ l, G.vertexData v = .ok l ∧
      ∀ x, x ∈ l ↔ x ≠ v ∧ (v, x) ∈ PyGraph.selfLoops n ++ E := by
    intro v hv
    obtain ⟨l, a1, a2⟩ := vertexData_raw B.str (show v < G.nVert by rw [B.nv]; omega)
    exact ⟨l, a1, fun x => by rw [a2, B.adj v x hv, and_comm]⟩
  refine ⟨fun v => get [] (G.vertexData v), ?_, ?_, ?_⟩
  · intro v hv
    obtain ⟨l, a1, _⟩ := hvd v hv
    unfold PyGraph.getVertexData
    simp only
    rw [if_neg (by omega), a1]
    rfl
  · intro v hv x hx
    obtain ⟨l, a1, a2⟩ := hvd v hv
    simp only [a1, Sample.get] at hx
    obtain ⟨x1, x2⟩ := (a2 x).1 hx
    have hxn : x ≤ n := (hrange _ x2).2
    obtain ⟨l', b1, b2⟩ := hvd x hxn
    refine ⟨hxn, x1, ?_⟩
    simp only [b1, Sample.get]
    exact (b2 v).2 ⟨x1.symm, hsym _ _ x2⟩
  · intro h0
    obtain ⟨l, a1, a2⟩ := hvd 0 (Nat.zero_le _)
    simp only [a1, Sample.get] at h0
    subst h0
    refine ⟨ofPairs E, .built hn hlen ⟨?_, hrange, ?_⟩ hload⟩
    · intro u v hu hv
      rw [List.mem_append, mem_selfLoops]
      simp only [ofPairs]
      constructor
      · rintro (h | h)
        · exact Or.inl h.1
        · by_cases huv : u = v
          · exact Or.inl huv
          · exact Or.inr ⟨huv, Or.inl h⟩
      · rintro (h | ⟨_, h | h⟩)
        · exact Or.inl ⟨h, hu⟩
        · exact Or.inr h
        · exact Or.inr (hE _ h).2.2
    · have key : ∀ u v, u ≠ v → (u, v) ∈ E → 1 ≤ u := by
        intro u v huv he
        by_contra hz
        have hz : u = 0 := by omega
        subst hz
        have := (a2 v).2 ⟨huv.symm, List.mem_append.2 (Or.inr he)⟩
        simp at this
      rintro u v ⟨huv, h | h⟩
      · have r := hE _ h
        have := key u v huv h
        have := key v u huv.symm r.2.2
        omega
      · have r := hE _ h
        have := key v u huv.symm h
        have := key u v huv r.2.2
        omega

/-- **C08** is false: a file whose row is `0 2` gives vertex 2 the neighbour 0, and a search
returns a clique with vertex 0 in it. -/
theorem C08_refuted : ∃ pg,
    PyGraph.fromFile true 64 true "3 3 2\n0 2\n1 2\n".toList = .ok pg ∧
    pg.getVertexData 2 = .ok [0, 1] ∧
    (pg.getMaxClique byDegree {} >>= fun x => .ok x.2) = .ok (.ret [0, 2]) := by
  refine ⟨get PyGraph.new (PyGraph.fromFile true 64 true "3 3 2\n0 2\n1 2\n".toList), ?_⟩
  decide +kernel

namespace Sample

/-- A file with comments, weights, a loop, an id that is too large and text at the end. -/
def fileText : List Char :=
  "%%MatrixMarket matrix\n# made by hand\n 4 4  5\n1 2 0.5\n 2\t3\n3 3\n7 1\n003 1 x\nthe end".toList

theorem fileText_is : IsFile 4 5 [(1, 2), (2, 3), (3, 3), (7, 1), (3, 1)] "the end".toList
    fileText := by
  refine ⟨["%%MatrixMarket matrix\n".toList, "# made by hand\n".toList],
    ["1 2 0.5\n".toList, " 2\t3\n".toList, "3 3\n".toList, "7 1\n".toList, "003 1 x\n".toList],
    " 4 4  5\n".toList, 4, by decide, ?_, ?_, by decide, ?_⟩
  · intro c hc
    simp only [List.mem_cons, List.not_mem_nil, or_false] at hc
    rcases hc with rfl | rfl
    · exact ⟨"%%MatrixMarket matrix".toList, by decide, by decide, by decide, by decide⟩
    · exact ⟨"# made by hand".toList, by decide, by decide, by decide, by decide⟩
  · exact ⟨[' '], ['4'], [' '], ['4'], [' ', ' '], ['5'], [], by decide, by simp [IsBlank],
      ⟨by decide, by decide, by decide⟩, by simp [IsBlank], by decide,
      ⟨by decide, by decide, by decide⟩, by simp [IsBlank], by decide,
      ⟨by decide, by decide, by decide⟩, by simp [IsBlank]⟩
  · refine .cons ⟨[], ['1'], [' '], ['2'], " 0.5".toList, ?_⟩
      (.cons ⟨[' '], ['2'], ['\t'], ['3'], [], ?_⟩ (.cons ⟨[], ['3'], [' '], ['3'], [], ?_⟩
      (.cons ⟨[], ['7'], [' '], ['1'], [], ?_⟩
      (.cons ⟨[], "003".toList, [' '], ['1'], " x".toList, ?_⟩ .nil))))
    all_goals
      exact ⟨by decide, by simp [IsBlank], ⟨by decide, by decide, by decide⟩, by simp [IsBlank],
        by decide, ⟨by decide, by decide, by decide⟩, by decide, by decide, by
          intro c hc
          simp at hc <;> (subst hc; decide)⟩

end Sample

/-- The file is read as the path `1 - 2 - 3` with the edge `3 - 1`. -/
example : ∃ pg, PyGraph.fromFile true 64 true fileText = .ok pg ∧
    pg.getVertexData 1 = .ok [2, 3] ∧ pg.getVertexData 2 = .ok [1, 3] ∧
    pg.getVertexData 4 = .ok [] ∧ pg.nvert < 2 ^ 31 ∧ pg.nedges = 5 := by
  refine ⟨get PyGraph.new (PyGraph.fromFile true 64 true fileText), ?_⟩
  decide +kernel

/-! ## C44 -/

/-- **C44** (the property is that `from_file` loads a graph or raises, for every file) is
false in four ways: an empty file and a file without numbers of vertices use variables that
were never assigned; so does a file that ends after its header; a large number of edges
makes the size of the edge arrays wrap around, and the reader writes behind them. -/
theorem C44_refuted :
    PyGraph.fromFile true 64 true [] = .error .ub ∧
    PyGraph.fromFile true 64 true "% nothing\n".toList = .error .ub ∧
    PyGraph.fromFile true 64 true "3 3 1\n".toList = .error .ub ∧
    PyGraph.fromFile true 64 true "3 3 9223372036854775808\n1 2\n".toList = .error .ub := by
  decide +kernel

/-- **C44**, as far as it is true: well-formed files, including those that end before the
announced number of rows if they have at least one row, are loaded.  Missing: files that are
not well-formed, see `C44_garbage_partial` and `C44_refuted`. -/
theorem C44_loads_partial {n m : Nat} {rows : List (Nat × Nat)} {rest text : List Char}
    (h : IsFile n m rows rest text)
    (hm : rows.length = m ∨ (rest = [] ∧ rows ≠ [] ∧ rows.length < m)) (hn : n < 2 ^ 31)
    (hb : m < 2 ^ 56) (hr : ∀ r ∈ rows, (1 ≤ r.1 ∧ r.1 < 2 ^ 64) ∧ (1 ≤ r.2 ∧ r.2 < 2 ^ 64))
    (argLR : Bool) (cap : Nat) (look : Bool) :
    ∃ pg, PyGraph.fromFile argLR cap look text = .ok pg ∧
      Loaded pg n (ofPairs (rows.filter fun r => r.1 ≤ n ∧ r.2 ≤ n)) := by
  have h60 : (2 : Nat) ^ 31 + 2 * 2 ^ 56 + 1 < 2 ^ 58 := by decide
  have h58 : (2 : Nat) ^ 58 < 2 ^ 60 := by decide
  obtain ⟨E, r1, r2⟩ := Mmio.reader_file (look := look) h (by omega)
    (by intro r hr'; have := hr r hr'; omega)
    (by rcases hm with hm | ⟨_, _, hm⟩ <;> omega)
    (by
      intro hlt
      rcases hm with hm | ⟨x, y, _⟩
      · omega
      · exact ⟨x, y⟩)
  have hD := Mmio.entries_describe r2 (by intro r hr' _ _ _; have := hr r hr'; omega)
  obtain ⟨pg', p1, p2, p3⟩ := load_built hD hn (by
    rw [List.length_append, selfLoops_length, r2.length]; omega) argLR cap m
  refine ⟨pg', ?_, p2⟩
  unfold PyGraph.fromFile
  rw [r1, ok_bind]
  simp only
  rw [if_neg (selfLoops_ne n E)]
  exact p1

/-- A file that is cut off after its first row. -/
example : IsFile 3 2 [(1, 2)] [] "3 3 2\n1 2\n".toList ∧
    (PyGraph.fromFile true 64 true "3 3 2\n1 2\n".toList >>= fun pg => pg.getVertexData 1) =
      .ok [2] := by
  refine ⟨⟨[], ["1 2\n".toList], "3 3 2\n".toList, 3, by decide, by simp, ?_, by decide,
    .cons ⟨[], ['1'], [' '], ['2'], [], ?_⟩ .nil⟩, by decide +kernel⟩
  · exact ⟨[], ['3'], [' '], ['3'], [' '], ['2'], [], by decide, by simp [IsBlank],
      ⟨by decide, by decide, by decide⟩, by simp [IsBlank], by decide,
      ⟨by decide, by decide, by decide⟩, by simp [IsBlank], by decide,
      ⟨by decide, by decide, by decide⟩, by simp [IsBlank]⟩
  · exact ⟨by decide, by simp [IsBlank], ⟨by decide, by decide, by decide⟩, by simp [IsBlank],
      by decide, ⟨by decide, by decide, by decide⟩, by decide, by decide, by simp⟩

/-- **C44** for files with anything at all after the first row: if the header and at least one
row are well-formed, `from_file` loads a graph with the announced number of vertices,
whatever the rest of the file contains; with no row announced, the header is enough.  The
graph is described by `C08_any_file_partial`.  Missing: files without a readable header or
first row, and numbers above the bounds (`C44_refuted`). -/
theorem C44_garbage_partial {n m : Nat} {rows : List (Nat × Nat)} {rest text : List Char}
    (h : IsFile n m rows rest text) (hm : rows.length ≤ m) (hne : rows ≠ [] ∨ m = 0)
    (hn : n < 2 ^ 31) (hb : m < 2 ^ 56) (hr : ∀ r ∈ rows, r.1 < 2 ^ 64 ∧ r.2 < 2 ^ 64)
    (argLR : Bool) (cap : Nat) (look : Bool) :
    ∃ pg, PyGraph.fromFile argLR cap look text = .ok pg ∧ pg.nvert = n ∧ pg.nedges = m := by
  have h60 : (2 : Nat) ^ 31 + 2 * 2 ^ 56 + 1 < 2 ^ 58 := by decide
  have h58 : (2 : Nat) ^ 58 < 2 ^ 60 := by decide
  obtain ⟨es, h1⟩ := Mmio.reader_ok (look := look) h (by omega) hr hm hne
  obtain ⟨E, rfl, hl, hE⟩ := Mmio.reader_any h1 (by omega)
  obtain ⟨G, hG, _⟩ := ctor_spec (edges := PyGraph.selfLoops n ++ E) argLR cap hn
    (by rw [List.length_append, selfLoops_length, hl]; omega)
    (by
      intro e he
      rcases List.mem_append.1 he with he | he
      · have := mem_selfLoops.1 he; omega
      · exact ⟨(hE e he).1, (hE e he).2.1⟩)
    (fun v hv => List.mem_append.2 (Or.inl (mem_selfLoops.2 ⟨rfl, hv⟩)))
    (by
      intro u v he
      rcases List.mem_append.1 he with he | he
      · have := mem_selfLoops.1 he
        simp only at this
        obtain ⟨rfl, h2⟩ := this
        exact List.mem_append.2 (Or.inl (mem_selfLoops.2 ⟨rfl, h2⟩))
      · exact List.mem_append.2 (Or.inr (hE _ he).2.2))
  unfold PyGraph.fromFile
  rw [h1, ok_bind]
  simp only
  rw [if_neg (selfLoops_ne n E)]
  unfold PyGraph.loadGraph
  rw [hG, ok_bind]
  exact ⟨_, rfl, rfl, rfl⟩

/-- A file whose second row is not a row: the failed extraction leaves 0 in the first variable
and the old value in the second, so an edge between 0 and 2 is stored; nothing is read after
that. -/
example : IsFile 3 3 [(1, 2)] "three 4\n2 3\n".toList "3 3 3\n1 2\nthree 4\n2 3\n".toList ∧
    (PyGraph.fromFile true 64 true "3 3 3\n1 2\nthree 4\n2 3\n".toList >>= fun pg =>
      pg.getVertexData 2) = .ok [0, 1] := by
  refine ⟨⟨[], ["1 2\n".toList], "3 3 3\n".toList, 3, by decide, by simp, ?_, by decide,
    .cons ⟨[], ['1'], [' '], ['2'], [], ?_⟩ .nil⟩, by decide +kernel⟩
  · exact ⟨[], ['3'], [' '], ['3'], [' '], ['3'], [], by decide, by simp [IsBlank],
      ⟨by decide, by decide, by decide⟩, by simp [IsBlank], by decide,
      ⟨by decide, by decide, by decide⟩, by simp [IsBlank], by decide,
      ⟨by decide, by decide, by decide⟩, by simp [IsBlank]⟩
  · exact ⟨by decide, by simp [IsBlank], ⟨by decide, by decide, by decide⟩, by simp [IsBlank],
      by decide, ⟨by decide, by decide, by decide⟩, by decide, by decide, by simp⟩

end CM
