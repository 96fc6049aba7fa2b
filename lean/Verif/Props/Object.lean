import Verif.Lemmas.Budget
import Verif.Lemmas.Shown
import Verif.Lemmas.EdgeCount
import Verif.Lemmas.Mono
import Verif.Props.Sample

/-!
# C26, C37-C39: the object as a whole
-/

namespace CM

open Spec Graph

open Sample (byDegree byDegree_perm)

variable {pg : PyGraph} {n : Nat} {S : SimpleGraph Nat}

/-! ## C26 -/

/-- **C26**: after any sequence of searches (of any kind, with any clock), resets and complete
iterations, the vertex count, the edge count, the three exports and the neighbours of every
vertex are what they were. -/
theorem C26_graph_unchanged (h : Usable pg n S) {ops : List Op} (hl : ∀ op ∈ ops, op.Legal) :
    ∃ pg1, runs ops pg = .ok pg1 ∧ pg1.nvert = pg.nvert ∧ pg1.nedges = pg.nedges ∧
      pg1.toEdgelist = pg.toEdgelist ∧ pg1.toMatrix = pg.toMatrix ∧
      pg1.toAdjList = pg.toAdjList ∧ ∀ i, pg1.getVertexData i = pg.getVertexData i := by
  obtain ⟨G, hF⟩ := h.fresh
  obtain ⟨pg1, G1, a1, a2, _, a4, _⟩ := runs_spec ops hF.pyok hl
  have hnv : pg1.nvert = pg.nvert := by rw [a2.nv, hF.pyok.nv]
  have hsd : G1.sendData = G.sendData := by
    obtain ⟨es, b1, b2, b3⟩ := sendData_spec a2.ok.wf.str a2.of
    obtain ⟨es', c1, c2, c3⟩ := sendData_spec hF.pyok.ok.wf.str hF.pyok.of
    rw [b1, c1]
    have : es = es' := by
      refine List.Perm.eq_of_pairwise (le := lexLt) ?_ b2 c2 ?_
      · intro x y _ _ h1 h2; unfold lexLt at h1 h2; omega
      · rw [List.perm_ext_iff_of_nodup (lexLt_nodup b2) (lexLt_nodup c2)]
        intro e; rw [b3, c3]
    rw [this]
  have hl1 : pg1.checkLoaded = some G1 := a2.holds.loaded a2.pos
  have hl0 : pg.checkLoaded = some G := hF.pyok.holds.loaded hF.pyok.pos
  refine ⟨pg1, a1, hnv, a4, ?_, ?_, ?_, ?_⟩
  · unfold PyGraph.toEdgelist
    rw [hl1, hl0]; simp only [hsd, a4]
  · unfold PyGraph.toMatrix
    rw [hl1, hl0]; simp only [hsd, hnv]
  · unfold PyGraph.toAdjList
    rw [hl1, hl0]; simp only [hsd, hnv]
  · intro i
    unfold PyGraph.getVertexData
    rw [hnv]
    by_cases hi : i > pg.nvert
    · rw [if_pos hi, if_pos hi]
    · rw [if_neg hi, if_neg hi, a2.g, hF.pyok.g]
      simp only
      have hi' : i ≤ n := by have := hF.pyok.nv; omega
      obtain ⟨l, b1, b2, b3⟩ := vertexData_spec a2.ok.wf.str a2.of hi'
      obtain ⟨l', c1, c2, c3⟩ := vertexData_spec hF.pyok.ok.wf.str hF.pyok.of hi'
      rw [b1, c1, sorted_ext b2 c2 (fun x => by rw [b3, c3])]

example : ∃ pg1, runs [.search byDegree { timeLimit := some (some 4) }, .list 3, .reset,
      .search byDegree {}] Sample.kite = .ok pg1 ∧ pg1 ≠ Sample.kite ∧
    pg1.toAdjList = .ok [[], [2, 3, 4], [1, 3, 4], [1, 2, 4], [1, 2, 3, 5], [4]] := by
  refine ⟨Sample.get PyGraph.new (runs [.search byDegree { timeLimit := some (some 4) }, .list 3,
    .reset, .search byDegree {}] Sample.kite), ?_⟩
  decide +kernel

/-! ## C37 -/

/-- **C37**, as far as it is true.  The full property: every method of a `Graph` that was
created but not loaded raises.  Proved: the searches, the iterators, the exports, and
`_vertex_neighbors(i)` for `i ≥ 1` do.  Missing, because false (`C37_refuted`): `reset_search()`
and `_vertex_neighbors(0)`. -/
theorem C37_unloaded_raises_partial (srt : List VData → List VData) (a : PyGraph.Args)
    (len2 k i : Nat) (hi : 1 ≤ i) :
    (∃ pg', PyGraph.new.getMaxClique srt a = .ok (pg', .raise)) ∧
    (∃ pg', PyGraph.new.getCorrespondence srt len2 a = .ok (pg', .raise)) ∧
    PyGraph.new.allCliques k = .error .throw ∧
    PyGraph.new.toEdgelist = .error .throw ∧
    PyGraph.new.toMatrix = .error .throw ∧
    PyGraph.new.toAdjList = .error .throw ∧
    PyGraph.new.getVertexData i = .error .throw := by
  refine ⟨⟨_, rfl⟩, ⟨_, rfl⟩, rfl, rfl, rfl, rfl, ?_⟩
  unfold PyGraph.getVertexData
  rw [if_pos (show i > PyGraph.new.nvert by show i > 0; omega)]

/-- **C37** fails: `Graph().reset_search()` and `Graph()._vertex_neighbors(0)` dereference
a null pointer. -/
theorem C37_refuted : PyGraph.new.resetSearch = .error .ub ∧
    PyGraph.new.getVertexData 0 = .error .ub := ⟨rfl, rfl⟩

/-! ## C38 -/

/-- **C38** fails in every state: whatever was called on a loaded graph, the value that
`repr` prints after `search_done=` is the opposite of the property `search_done`. -/
theorem C38_refuted (h : Loaded pg n S) (hn : n ≠ 0) {ops : List Op} {pg1 : PyGraph}
    (hr : runs ops pg = .ok pg1) : pg1.shownSearchDone ≠ pg1.finishedAll := by
  obtain ⟨hs, cap, m, G, hL⟩ := h.as
  have hI : Inverted pg := by
    rw [hL.eq]
    refine ⟨hn, rfl, ?_⟩
    show decide (0 < n) = true
    rw [decide_eq_true_eq]; omega
  have := (runs_inverted ops hI hr).shown
  rw [this]
  cases pg1.finishedAll <;> decide

/-- Every history of legal calls on a usable object reaches such a state. -/
theorem C38_reached (h : Usable pg n S) {ops : List Op} (hl : ∀ op ∈ ops, op.Legal) :
    ∃ pg1, runs ops pg = .ok pg1 ∧ pg1.shownSearchDone ≠ pg1.finishedAll := by
  obtain ⟨G, hF⟩ := h.fresh
  obtain ⟨pg1, G1, a1, _⟩ := runs_spec ops hF.pyok hl
  exact ⟨pg1, a1, C38_refuted h.loaded hF.pyok.pos a1⟩

example : Sample.kite.shownSearchDone = true ∧ Sample.kite.finishedAll = false ∧
    (runs [.search byDegree {}] Sample.kite >>= fun x => .ok (x.shownSearchDone, x.finishedAll)) =
      .ok (false, true) := by
  decide +kernel

/-! ## C39 -/

/-- `m` rounds of `G.get_max_clique(time_limit=t, continue_search=True)`; `clocks k` is the
behaviour of the clock in round `k`. -/
def rounds (srt : List VData → List VData) (clocks : Nat → Clock) : Nat → List Op
  | 0 => []
  | m + 1 => rounds srt clocks m ++
      [.search srt { timeLimit := some (clocks m), continueSearch := true }]

/-- **C39**, as far as it is true.  The full property: for every usable graph and every
behaviour of the clocks, `while not G.search_done: G.get_max_clique(time_limit=t,
continue_search=True)` terminates.  Proved: in whatever state the object is, there
is a number of clock queries such that the next call sets `search_done` if its clock
answers that many times before it expires; in particular if it does not expire.  Missing,
because false (`C39_refuted`): termination with shorter time limits. -/
theorem C39_progress_partial (h : Usable pg n S) {ops : List Op} (hl : ∀ op ∈ ops, op.Legal)
    {srt : List VData → List VData} (hsrt : ∀ l, (srt l).Perm l) (a : PyGraph.Args)
    (hd : a.useDfs = true) :
    ∃ pg1 pg2 r T, runs ops pg = .ok pg1 ∧ pg2.finishedAll = true ∧
      pg1.getMaxClique srt { a with timeLimit := some none } = .ok (pg2, r) ∧
      ∀ b, T ≤ b → pg1.getMaxClique srt { a with timeLimit := some (some b) } = .ok (pg2, r) := by
  obtain ⟨G, hF⟩ := h.fresh
  obtain ⟨pg1, G1, a1, a2, _⟩ := runs_spec ops hF.pyok hl
  obtain ⟨pg2, r, b1, b2⟩ := search_finishes a2 hsrt { a with timeLimit := some none } hd rfl
  obtain ⟨T, hT⟩ := getMaxClique_budget pg1 srt a b1
  exact ⟨pg1, pg2, r, T, a1, b2, b1, hT⟩

example : (Sample.kite.getMaxClique byDegree
      { timeLimit := some (some 40), continueSearch := true } >>= fun x => .ok x.1.finishedAll) =
    .ok true ∧ (Sample.kite.getMaxClique byDegree
      { timeLimit := some (some 3), continueSearch := true, useHeuristic := false } >>=
        fun x => .ok x.1.finishedAll) = .ok false := by
  decide +kernel

namespace Sample

/-- A four-cycle on `1, 3, 2, 4` and an isolated vertex. -/
def squareRows : List (Nat × Nat) := [(1, 3), (2, 3), (1, 4), (2, 4)]

def square : PyGraph := get PyGraph.new (PyGraph.fromEdgelist true 64 squareRows 5)

theorem square_eq : PyGraph.fromEdgelist true 64 squareRows 5 = .ok square := by decide +kernel

theorem square_usable : Usable square 5 (ofPairs squareRows) := by
  refine ⟨.edgelist (by decide) (by decide) square_eq, ?_, 1, 3, by decide, Or.inl (by decide)⟩
  intro G hG
  have : (square.G.map fun G => G.dangling) = some false := by decide +kernel
  rw [hG] at this
  simpa using this

/-- The state after one round with a clock that answers "not yet" three times. -/
def stuck : PyGraph := get PyGraph.new
  (runs [.search byDegree { timeLimit := some (some 3), continueSearch := true }] square)

end Sample

/-- **C39** fails: on the four-cycle, if the clock expires at its fourth query in every round,
`search_done` is false after every number of rounds. -/
theorem C39_refuted : Usable Sample.square 5 (ofPairs Sample.squareRows) ∧
    ∀ m, ∃ pg1, runs (rounds byDegree (fun _ => some 3) m) Sample.square = .ok pg1 ∧
      pg1.finishedAll = false := by
  refine ⟨Sample.square_usable, ?_⟩
  have h1 : runs [.search byDegree { timeLimit := some (some 3), continueSearch := true }]
      Sample.square = .ok Sample.stuck := by decide +kernel
  have h2 : runs [.search byDegree { timeLimit := some (some 3), continueSearch := true }]
      Sample.stuck = .ok Sample.stuck := by decide +kernel
  have key : ∀ m, runs (rounds byDegree (fun _ => some 3) (m + 1)) Sample.square =
      .ok Sample.stuck := by
    intro m
    induction m with
    | zero => exact h1
    | succ m ih =>
      rw [rounds, runs_append, ih, ok_bind]
      exact h2
  intro m
  cases m with
  | zero => exact ⟨Sample.square, rfl, by decide +kernel⟩
  | succ m => exact ⟨Sample.stuck, key m, by decide +kernel⟩

end CM
