import Verif.Lemmas.HeapBuild
import Verif.Props.Heap
import Verif.Props.ExportExact
import Verif.Props.Correspondence

/-!
# C104: when memory runs out while a correspondence graph is built

`Build.run` (`Model/HeapBuild`) is a call of `build_edges` (or of one of its variants) on an object, with
memory that may run out while the edges are computed or while the graph is made; the answer is then
`noMemory`, i.e. `MemoryError`.  The property one would like is that the object is then as before the
call.
-/

namespace CM

open Spec Graph Sample

variable {D : Type} [LinearOrder D] [Inhabited D] {argLR : Bool} {cap : Nat} {pg : PyGraph} {n : Nat}
  {S : SimpleGraph Nat}

/-- **C104**: with enough memory nothing of this happens. -/
theorem C104_enough (b : Build D) (pg : PyGraph) :
    b.run argLR cap .enough pg = (b.plain argLR cap pg).map fun pg' => (pg', .ret ()) := by
  have hL : ∀ n m edges, pg.loadGraphA argLR cap true n m edges =
      (PyGraph.loadGraph argLR cap pg n m edges).map fun pg' => (pg', HeapRes.ret ()) := by
    intro n m edges
    unfold PyGraph.loadGraphA
    rw [if_pos rfl]
    cases PyGraph.loadGraph argLR cap pg n m edges <;> rfl
  have hE : ∀ x : M (Nat × Nat × Edges),
      (x >>= fun y => if y.2.2.length = 0 then Except.error Fault.throw
        else pg.loadGraphA argLR cap true y.1 y.2.1 y.2.2) =
      (x >>= fun y => if y.2.2.length = 0 then Except.error Fault.throw
        else PyGraph.loadGraph argLR cap pg y.1 y.2.1 y.2.2).map fun pg' => (pg', HeapRes.ret ()) := by
    intro x
    cases x with
    | error e => rfl
    | ok y =>
      show (if _ then _ else _) = Except.map _ (if _ then _ else _)
      split
      · rfl
      · exact hL _ _ _
  have hR : b.run argLR cap .enough pg =
      (b.edges >>= fun y => if y.2.2.length = 0 then Except.error Fault.throw
        else pg.loadGraphA argLR cap true y.1 y.2.1 y.2.2) := rfl
  rw [hR, hE]
  congr 1
  cases b with
  | metric srt1 srt2 M N w d1 sym1 d2 sym2 =>
    show ((fillDists srt1 M sym1 d1 >>= fun ps1 => fillDists srt2 N sym2 d2 >>= fun ps2 =>
      edgesFromRelsets M N sym1 sym2 ps1 ps2 w) >>= _) = buildMetric _ _ _ _ _ _ _ _ _ _ _ _
    unfold buildMetric
    cases fillDists srt1 M sym1 d1 with
    | error e => rfl
    | ok ps1 =>
      rw [ok_bind, ok_bind]
      cases fillDists srt2 N sym2 d2 with
      | error e => rfl
      | ok ps2 => rfl
  | both srt1 srt2 M N w c d1 sym1 d2 sym2 =>
    show ((fillDists srt1 M sym1 d1 >>= fun ps1 => fillDists srt2 N sym2 d2 >>= fun ps2 =>
      efrCondition M N sym1 sym2 ps1 ps2 w c) >>= _) = buildBoth _ _ _ _ _ _ _ _ _ _ _ _ _
    unfold buildBoth
    cases fillDists srt1 M sym1 d1 with
    | error e => rfl
    | ok ps1 =>
      rw [ok_bind, ok_bind]
      cases fillDists srt2 N sym2 d2 with
      | error e => rfl
      | ok ps2 => rfl
  | condition M N c =>
    show (Build.edges (.condition M N c) >>= _) = buildCondition _ _ _ _ _ _
    unfold Build.edges buildCondition
    dsimp only
    cases forRange 0 M _ (PyGraph.selfLoops (umul M N), 0) with
    | error e => rfl
    | ok x => rfl
  | iso pg1 pg2 =>
    show (Build.edges (.iso pg1 pg2) >>= _) = buildIso _ _ _ _ _
    unfold Build.edges buildIso
    dsimp only
    split
    · rfl
    · cases pg1.G with
      | none => rfl
      | some G1 =>
        cases pg2.G with
        | none => rfl
        | some G2 => rfl

/-- **C104**, what a failed build leaves: the object as it was, or as it was but with the numbers of
vertices and edges of the graph that was not made.  The second happens exactly if the memory ran
out after the edges had been computed. -/
theorem C104_left {b : Build D} {mem : BuildMem} {pg' : PyGraph}
    (h : b.run argLR cap mem pg = .ok (pg', .noMemory)) :
    (mem = .noEdges ∧ pg' = pg) ∨
      (mem = .noGraph ∧ ∃ n' m' es, b.edges = .ok (n', m', es) ∧ es ≠ [] ∧
        pg' = { pg with nvert := n', nedges := m' }) := by
  unfold Build.run at h
  split at h
  · rename_i hm
    cases h
    exact Or.inl ⟨hm, rfl⟩
  · rename_i hm
    obtain ⟨⟨n', m', es⟩, h1, h⟩ := bind_eq_ok.1 h
    dsimp only at h
    split at h
    · cases h
    · rename_i hes
      unfold PyGraph.loadGraphA at h
      split at h
      · obtain ⟨p, _, h⟩ := bind_eq_ok.1 h
        cases h
      · rename_i hg
        cases h
        refine Or.inr ⟨?_, n', m', es, h1, fun e => hes (by rw [e]; rfl), rfl⟩
        cases mem with
        | enough => exact absurd (decide_eq_true rfl) hg
        | noEdges => exact absurd rfl hm
        | noGraph => rfl

/-- **C104**, how it gets there: whenever the edges can be computed and the memory then runs out. -/
theorem C104_reached {b : Build D} {n' m' : Nat} {es : Edges} (hb : b.edges = .ok (n', m', es))
    (he : es ≠ []) (pg : PyGraph) :
    b.run argLR cap .noGraph pg = .ok ({ pg with nvert := n', nedges := m' }, .noMemory) := by
  unfold Build.run
  rw [if_neg (by decide), hb, ok_bind]
  dsimp only
  rw [if_neg (fun h => he (List.length_eq_zero_iff.1 h))]
  rfl

/-- What a failed build leaves has the graph it had. -/
theorem left_same {b : Build D} {mem : BuildMem} {pg' : PyGraph}
    (h : b.run argLR cap mem pg = .ok (pg', .noMemory)) : SameGraph pg pg' := by
  rcases C104_left h with ⟨_, rfl⟩ | ⟨_, n', m', es, _, _, rfl⟩
  · exact SameGraph.refl _
  · exact sameGraph_counts _ _ _

/-- **C104**, searches.  The full property: after a build that raised `MemoryError` every call answers
as if there had been no build.  Proved: searches do, after any history before the failed build and
any searches and resets after it, provided that the graph that was not made would have had a
vertex.  Missing, because false: listings and exports (`C104_refuted`, `C104_refuted_fewer`,
`C104_export`). -/
theorem C104_searches_partial (h : Usable pg n S) {ops1 ops2 : List Op} {pg1 pg2 : PyGraph}
    (hl1 : ∀ op ∈ ops1, op.Legal) (hr : runs ops1 pg = .ok pg1) {b : Build D} {mem : BuildMem}
    (hb : b.run argLR cap mem pg1 = .ok (pg2, .noMemory)) (h0 : pg2.nvert ≠ 0)
    (hl2 : ∀ op ∈ ops2, op.Legal ∧ ∀ k, op ≠ .list k) {srt : List VData → List VData}
    (hsrt : ∀ l, (srt l).Perm l) (a : PyGraph.Args) :
    ∃ pg3 pg4 pg5 pg6 r, runs ops2 pg1 = .ok pg3 ∧ runs ops2 pg2 = .ok pg4 ∧
      pg3.getMaxClique srt a = .ok (pg5, r) ∧ pg4.getMaxClique srt a = .ok (pg6, r) := by
  obtain ⟨G, hF⟩ := h.fresh
  obtain ⟨p, G1, a1, a2, _⟩ := runs_spec ops1 hF.pyok hl1
  rw [hr] at a1
  cases a1
  obtain ⟨pg3, pg4, G3, b1, b2, b3, b4, b5, _⟩ := runs_same ops2 (left_same hb) a2 h0 hl2
  obtain ⟨G4, i, c1, _⟩ := getMaxClique_spec b4 hsrt a
  obtain ⟨pg6, d1, _⟩ := getMaxClique_same b3 b4.g (by rw [b4.nv]; exact b4.pos)
    (by rw [b5]; exact h0) c1
  exact ⟨pg3, pg4, _, pg6, _, b1, b2, c1, d1⟩

/-- **C104**, listings of a graph with as many vertices or more than that which was not made: what
`all_cliques(k)` lists is an initial part of what it would have listed, and all of it if the numbers
of vertices are the same. -/
theorem C104_listing_partial (h : Usable pg n S) {ops1 ops2 : List Op} {pg1 pg2 : PyGraph}
    (hl1 : ∀ op ∈ ops1, op.Legal) (hr : runs ops1 pg = .ok pg1) {b : Build D} {mem : BuildMem}
    (hb : b.run argLR cap mem pg1 = .ok (pg2, .noMemory)) (h0 : pg2.nvert ≠ 0)
    (hle : pg2.nvert ≤ n) (hl2 : ∀ op ∈ ops2, op.Legal ∧ ∀ k, op ≠ .list k) (k : Nat) :
    ∃ pg3 pg4 pg5 pg6 cs csX, runs ops2 pg1 = .ok pg3 ∧ runs ops2 pg2 = .ok pg4 ∧
      pg3.listCliques k = .ok (pg5, cs) ∧ pg4.listCliques k = .ok (pg6, csX) ∧ csX <+: cs ∧
      (pg2.nvert = n → csX = cs) := by
  obtain ⟨G, hF⟩ := h.fresh
  obtain ⟨p, G1, a1, a2, _⟩ := runs_spec ops1 hF.pyok hl1
  rw [hr] at a1
  cases a1
  obtain ⟨pg3, pg4, G3, b1, b2, b3, b4, b5, _⟩ := runs_same ops2 (left_same hb) a2 h0 hl2
  obtain ⟨G4, cs, c1, _⟩ := listCliques_spec b4 k
  obtain ⟨pg6, csX, d1, d2, d3⟩ := listCliques_fewer b4 b3.g (by omega) (by omega) c1
  exact ⟨pg3, pg4, _, pg6, cs, csX, b1, b2, c1, d1, d2, fun e => (d3 (by omega)).1⟩

/-- **C104** fails whenever the graph that was not made would have had more vertices: every listing of
cliques then reads a vertex that does not exist, whatever was called before and whatever is searched
for in between. -/
theorem C104_refuted (h : Usable pg n S) {ops1 ops2 : List Op} {pg1 pg2 : PyGraph}
    (hl1 : ∀ op ∈ ops1, op.Legal) (hr : runs ops1 pg = .ok pg1) {b : Build D} {mem : BuildMem}
    (hb : b.run argLR cap mem pg1 = .ok (pg2, .noMemory)) (hlt : n < pg2.nvert)
    (hl2 : ∀ op ∈ ops2, op.Legal ∧ ∀ k, op ≠ .list k) (k : Nat) :
    ∃ pg3 pg4 pg5 cs, runs ops2 pg1 = .ok pg3 ∧ runs ops2 pg2 = .ok pg4 ∧
      pg3.listCliques k = .ok (pg5, cs) ∧ pg4.listCliques k = .error .ub := by
  obtain ⟨G, hF⟩ := h.fresh
  obtain ⟨p, G1, a1, a2, _⟩ := runs_spec ops1 hF.pyok hl1
  rw [hr] at a1
  cases a1
  obtain ⟨pg3, pg4, G3, b1, b2, b3, b4, b5, _⟩ :=
    runs_same ops2 (left_same hb) a2 (by omega) hl2
  obtain ⟨G4, cs, c1, _⟩ := listCliques_spec b4 k
  exact ⟨pg3, pg4, _, cs, b1, b2, c1, listCliques_past b4 b3.g (by omega) k⟩

/-- **C104** fails whenever the graph that was not made would have had no vertex: the object then
counts as not initialized, and searches, iterators and exports raise. -/
theorem C104_refuted_empty {b : Build D} {mem : BuildMem} {pg' : PyGraph}
    (_h : b.run argLR cap mem pg = .ok (pg', .noMemory)) (h0 : pg'.nvert = 0)
    (srt : List VData → List VData) (a : PyGraph.Args) (k : Nat) :
    (∃ pg2, pg'.getMaxClique srt a = .ok (pg2, .raise)) ∧
    pg'.allCliques k = .error .throw ∧ pg'.toEdgelist = .error .throw := by
  have hc : ∀ c, PyGraph.checkLoaded { pg' with currentVertex := c } = none := by
    intro c
    unfold PyGraph.checkLoaded
    rw [if_pos h0]
  have hc' : pg'.checkLoaded = none := hc pg'.currentVertex
  refine ⟨⟨{ pg' with currentVertex := if a.continueSearch then pg'.currentVertex else 0 }, ?_⟩,
    ?_, ?_⟩
  · unfold PyGraph.getMaxClique
    dsimp only
    rw [hc]
  · unfold PyGraph.allCliques
    rw [hc']
  · unfold PyGraph.toEdgelist
    rw [hc']

/-- **C104**, `to_edgelist()`: the array has as many rows as the graph that was not made would have had
edges.  If these are fewer than the edges of the graph there is, the export writes beyond the
array; if they are more, the rest is uninitialised. -/
theorem C104_export (h : Usable pg n S) {ops1 ops2 : List Op} {pg1 pg2 : PyGraph}
    (hl1 : ∀ op ∈ ops1, op.Legal) (hr : runs ops1 pg = .ok pg1) {b : Build D} {mem : BuildMem}
    (hb : b.run argLR cap mem pg1 = .ok (pg2, .noMemory)) (h0 : pg2.nvert ≠ 0)
    (hl2 : ∀ op ∈ ops2, op.Legal ∧ ∀ k, op ≠ .list k) :
    ∃ pg4 es, runs ops2 pg2 = .ok pg4 ∧ ListsEdges S es ∧ es.length = edgeCount S n ∧
      pg4.toEdgelist = if edgeCount S n ≤ pg2.nedges then
        .ok (es.map some ++ List.replicate (pg2.nedges - edgeCount S n) none) else .error .ub := by
  obtain ⟨G, hF⟩ := h.fresh
  obtain ⟨p, G1, a1, a2, _⟩ := runs_spec ops1 hF.pyok hl1
  rw [hr] at a1
  cases a1
  obtain ⟨pg3, pg4, G3, b1, b2, b3, b4, b5, b6, _⟩ :=
    runs_same ops2 (left_same hb) a2 h0 hl2
  have hH : Holds { pg3 with nedges := pg4.nedges } n S G3 :=
    ⟨b4.g, b4.nv, b4.ok.wf.str, b4.of⟩
  obtain ⟨es, c1, c2, c3⟩ := toEdgelist_spec hH b4.pos
  have hc := edgeCount_list b4.of.rng (lexLt_nodup c1) c2
  have hE : pg4.toEdgelist = PyGraph.toEdgelist { pg3 with nedges := pg4.nedges } := by
    unfold PyGraph.toEdgelist
    rw [hH.loaded b4.pos]
    have : pg4.checkLoaded = some G3 := by
      unfold PyGraph.checkLoaded
      rw [if_neg (by omega), b3.g, b4.g]
    rw [this]
  refine ⟨pg4, es, b2, ⟨c1, c2⟩, hc, ?_⟩
  rw [hE, c3, hc]
  dsimp only
  rw [b6]

/-- **C104**, afterwards: a build that has the memory gives the object it would have given without the
failed build. -/
theorem C104_rebuilt {b b' : Build D} {mem : BuildMem} {pg' : PyGraph}
    (h : b.run argLR cap mem pg = .ok (pg', .noMemory)) :
    b'.plain argLR cap pg' = b'.plain argLR cap pg := by
  rcases C104_left h with ⟨_, rfl⟩ | ⟨_, n', m', es, _, _, rfl⟩
  · rfl
  · cases b' <;> rfl

/-- **C104**, a first build that failed: searches, iterators and exports raise, as before it. -/
theorem C104_first {b : Build D} {mem : BuildMem} {pg' : PyGraph}
    (h : b.run argLR cap mem PyGraph.new = .ok (pg', .noMemory)) (srt : List VData → List VData)
    (a : PyGraph.Args) (len2 k : Nat) :
    (∃ pg2, pg'.getMaxClique srt a = .ok (pg2, .raise)) ∧
    (∃ pg2, pg'.getCorrespondence srt len2 a = .ok (pg2, .raise)) ∧
    pg'.allCliques k = .error .throw ∧ pg'.toEdgelist = .error .throw ∧
    pg'.toMatrix = .error .throw ∧ pg'.toAdjList = .error .throw := by
  have hc : ∀ c, PyGraph.checkLoaded { pg' with currentVertex := c } = none := by
    intro c
    unfold PyGraph.checkLoaded
    dsimp only
    rw [(left_same h).g]
    split <;> rfl
  have hc' : pg'.checkLoaded = none := hc pg'.currentVertex
  have hs : pg'.getMaxClique srt a = .ok ({ pg' with
      currentVertex := if a.continueSearch then pg'.currentVertex else 0 }, .raise) := by
    unfold PyGraph.getMaxClique
    dsimp only
    rw [hc]
  refine ⟨⟨_, hs⟩, ⟨{ pg' with
      currentVertex := if a.continueSearch then pg'.currentVertex else 0 }, ?_⟩, ?_, ?_, ?_, ?_⟩
  · unfold PyGraph.getCorrespondence
    rw [hs, ok_bind]
  · unfold PyGraph.allCliques
    rw [hc']
  · unfold PyGraph.toEdgelist
    rw [hc']
  · unfold PyGraph.toMatrix
    rw [hc']
  · unfold PyGraph.toAdjList
    rw [hc']

/-- **C104** fails for a first build too: `_vertex_neighbors(i)`, which raised before for every
`i ≥ 1`, now follows a null pointer for every `i` up to the number of vertices. -/
theorem C104_refuted_first {b : Build D} {pg' : PyGraph}
    (h : b.run argLR cap .noGraph PyGraph.new = .ok (pg', .noMemory)) {i : Nat} (hi : 1 ≤ i)
    (hle : i ≤ pg'.nvert) :
    PyGraph.new.getVertexData i = .error .throw ∧ pg'.getVertexData i = .error .ub := by
  constructor
  · unfold PyGraph.getVertexData
    rw [if_pos (show i > PyGraph.new.nvert by show i > 0; omega)]
  · unfold PyGraph.getVertexData
    rw [if_neg (by omega), (left_same h).g]
    rfl

/-! ## Examples -/

namespace Sample

/-- `build_edges_condition_only` with a condition that is always met. -/
def always (M N : Nat) : Build Int := .condition M N fun _ _ _ _ => true

/-- The object built for sets of three and two elements. -/
def threeTwo : PyGraph :=
  get PyGraph.new (buildCondition true 400 PyGraph.new 3 2 fun _ _ _ _ => true)

/-- The same object after a search, and then a build for sets of `M` and `N` elements for whose
graph there was no memory. -/
def failed (M N : Nat) : PyGraph :=
  ((get (threeTwo, .raise) (threeTwo.getMaxClique byDegree {} >>= fun x =>
    (always M N).run true 400 .noGraph x.1 >>= fun y => .ok (y.1, PyRes.raise (α := Unit))))).1

/-- The object of the examples meets the hypotheses. -/
theorem threeTwo_usable : ∃ S, Usable threeTwo 6 S := by
  obtain ⟨pg, S, h1, h2, h3, _⟩ := C31_condition_only_partial (M := 3) (N := 2) (argLR := true)
    (cap := 400) (c := fun _ _ _ _ => true) (by norm_num)
  have e : threeTwo = pg := by
    unfold threeTwo
    rw [h1]
    rfl
  rw [← e] at h2
  refine ⟨S, h2, ?_, _, _, (h3 0 1 0 1 (by decide) (by decide) (by decide) (by decide)).2
    ⟨by decide, by decide, rfl⟩⟩
  intro G hG
  have : (threeTwo.G.map Graph.dangling) = some false := by decide +kernel
  rw [hG] at this
  simpa using this

end Sample

/-- A search, and then builds that run out of memory for a graph with more vertices, with fewer, with
the same number, and with none. -/
example : ∃ pg1, runs [.search byDegree {}] threeTwo = .ok pg1 ∧ pg1 ≠ threeTwo ∧
    (always 4 2).run true 400 .noGraph pg1 = .ok (failed 4 2, .noMemory) ∧ 6 < (failed 4 2).nvert ∧
    (always 2 2).run true 400 .noGraph pg1 = .ok (failed 2 2, .noMemory) ∧ (failed 2 2).nvert = 4 ∧
    (always 2 3).run true 400 .noGraph pg1 = .ok (failed 2 3, .noMemory) ∧ (failed 2 3).nvert = 6 ∧
    (always 0 3).run true 400 .noGraph pg1 = .ok (failed 0 3, .noMemory) ∧ (failed 0 3).nvert = 0 ∧
    (always 4 2).run true 400 .noEdges pg1 = .ok (pg1, .noMemory) := by
  refine ⟨get PyGraph.new (runs [.search byDegree {}] threeTwo), ?_⟩
  decide +kernel

/-- **C104** fails for smaller graphs too: cliques are lost without a word, and `to_edgelist()` writes
beyond its array. -/
theorem C104_refuted_fewer :
    (threeTwo.listCliques 1 >>= fun x => .ok x.2) = .ok [[1], [2], [3], [4], [5], [6]] ∧
    ((failed 2 2).listCliques 1 >>= fun x => .ok x.2) = .ok [[1], [2], [3], [4]] ∧
    (failed 2 2).toEdgelist = .error .ub := by
  decide +kernel

/-- With more vertices: the listing reads beyond the vertices, and rows of the export are
uninitialised; with the same number of them, the listing is right. -/
example : (failed 4 2).listCliques 1 = .error .ub ∧ (failed 4 2).listCliques 2 = .error .ub ∧
    (failed 4 2).toEdgelist = .ok ([(1, 4), (1, 6), (2, 3), (2, 5), (3, 6), (4, 5)].map some ++
      List.replicate 6 none) ∧
    ((failed 4 2).getMaxClique byDegree {} >>= fun x => .ok x.2) =
      (threeTwo.getMaxClique byDegree {} >>= fun x => .ok x.2) ∧
    ((failed 2 3).listCliques 1 >>= fun x => .ok x.2) = .ok [[1], [2], [3], [4], [5], [6]] ∧
    ((failed 0 3).getMaxClique byDegree {} >>= fun x => .ok x.2) = .ok .raise := by
  decide +kernel

/-- A first build that fails, and one that succeeds after one that failed. -/
example : ∃ pg1 pg2 pg3, (always 3 2).run true 400 .noGraph PyGraph.new = .ok (pg1, .noMemory) ∧
    pg1.nvert = 6 ∧ pg1.getVertexData 3 = .error .ub ∧
    (always 3 2).run true 400 .enough pg1 = .ok (pg2, .ret ()) ∧
    (always 3 2).run true 400 .enough PyGraph.new = .ok (pg3, .ret ()) ∧ pg2 = pg3 := by
  refine ⟨(get (PyGraph.new, .raise) ((always 3 2).run true 400 .noGraph PyGraph.new)).1,
    threeTwo, threeTwo, ?_⟩
  decide +kernel

end CM
