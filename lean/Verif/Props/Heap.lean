import Verif.Lemmas.HeapAny
import Verif.Props.MaxClique
import Verif.Lemmas.Mono

/-!
# C103: when memory runs out in the middle of a call

`getMaxCliqueA` and `nextCliqueA` (`Model/Heap`) are `get_max_clique` and `__next__` with a heap that
may refuse any request; the answer is then `noMemory`, i.e. `MemoryError`.
-/

namespace CM

open Spec Graph Sample

variable {grow : Nat → Nat} {pg : PyGraph} {n : Nat} {S : SimpleGraph Nat}

/-- **C103**, one search.  The full property: whenever a request for memory is refused, the object is
left as if the call had done less.  Proved: this holds for objects and calls with an `upper_bound`
larger than the number of neighbours of any vertex, after any history of such calls that may
themselves have run out of memory.  The search either is as it would be with all the memory in the
world, or it raises `MemoryError`, only if a request was refused, and the object, but for
`search_done`, is as after the same search, that search without its exact part, or one that does
nothing but set the bounds and the place to continue at.  Missing, because false
(`C103_refuted`): smaller values of `upper_bound`. -/
theorem C103_search_partial (h : Usable pg n S) {steps : List (Op × Heap)}
    (hs : ∀ s ∈ steps, s.1.Legal ∧ s.1.Wide S) {srt : List VData → List VData}
    (hsrt : ∀ l, (srt l).Perm l) {a : PyGraph.Args} (ha : Wide S a.upperBound) (hp : Heap) :
    ∃ pg1, runsA grow steps pg = .ok pg1 ∧
      ((∃ pg2 r, pg1.getMaxClique srt a = .ok (pg2, r) ∧
        pg1.getMaxCliqueA grow srt hp a = .ok (pg2, .of r)) ∨
      (hp ≠ none ∧ ∃ a' pg2 pg3 r, a'.Less a ∧
        pg1.getMaxCliqueA grow srt hp a = .ok (pg2, .noMemory) ∧
        pg1.getMaxClique srt a' = .ok (pg3, r) ∧ SameBut pg2 pg3)) := by
  obtain ⟨G, hF⟩ := h.fresh
  obtain ⟨pg1, ops, pg', G', a1, _, _, a4, a5, a6⟩ :=
    runsA_spec (grow := grow) steps (SameBut.refl pg) hF.pyok hF.bounds.le hs
  exact ⟨pg1, a1, getMaxCliqueA_spec (a4.pyok a5) a6 hsrt ha hp⟩

/-- **C103**, histories: a history of calls any of which may run out of memory leaves the object, but
for `search_done`, as a history in which none does and each search is asked for the same or for
less. -/
theorem C103_history_partial (h : Usable pg n S) {steps : List (Op × Heap)}
    (hs : ∀ s ∈ steps, s.1.Legal ∧ s.1.Wide S) :
    ∃ pg1 ops pg2, runsA grow steps pg = .ok pg1 ∧
      List.Forall₂ Op.Less ops (steps.map Prod.fst) ∧ runs ops pg = .ok pg2 ∧ SameBut pg1 pg2 := by
  obtain ⟨G, hF⟩ := h.fresh
  obtain ⟨pg1, ops, pg', G', a1, a2, a3, a4, _⟩ :=
    runsA_spec (grow := grow) steps (SameBut.refl pg) hF.pyok hF.bounds.le hs
  exact ⟨pg1, ops, pg', a1, a2, a3, a4⟩

/-- **C103**, afterwards: after a history of searches that were not cut short but by a lack of memory,
`reset_search` and a search with enough of it return a maximum clique. -/
theorem C103_after_partial (h : Usable pg n S) {steps : List (Op × Heap)}
    (hs : ∀ s ∈ steps, s.1.Legal ∧ s.1.Wide S ∧ s.1.Positive ∧ s.1.Exact S n)
    {srt : List VData → List VData} (hsrt : ∀ l, (srt l).Perm l) (a : PyGraph.Args)
    (hd : a.useDfs = true) (ht : a.timeLimit = none) (ha : Wide S a.upperBound)
    (hu : ∀ l, IsCliqueList S n l → l.length ≤ a.upperBound) (hlb : a.lowerBound = 1) :
    ∃ pg1 pg2 pg3 l, runsA grow steps pg = .ok pg1 ∧ pg1.resetSearch = .ok pg2 ∧
      pg2.getMaxCliqueA grow srt none a = .ok (pg3, .ret l) ∧ IsMaxCliqueList S n l := by
  obtain ⟨G, hF⟩ := h.fresh
  obtain ⟨pg1, ops, pg', G', a1, a2, a3, a4, a5, a6⟩ := runsA_spec (grow := grow) steps
    (SameBut.refl pg) hF.pyok hF.bounds.le (fun s m => ⟨(hs s m).1, (hs s m).2.1⟩)
  have hops : ∀ op ∈ ops, op.Legal ∧ op.Positive ∧ op.Exact S n := by
    intro op ho
    obtain ⟨i, hi, rfl⟩ := List.getElem_of_mem ho
    have hl := a2.length_eq
    have hr := a2.get hi (by rw [← hl]; exact hi)
    have hm : (steps.map Prod.fst)[i]'(by rw [← hl]; exact hi) ∈ steps.map Prod.fst :=
      List.getElem_mem _
    obtain ⟨s, m, e⟩ := List.mem_map.1 hm
    obtain ⟨b1, _, b3, b4⟩ := hs s m
    rw [e] at b1 b3 b4
    exact ⟨less_legal hr b1, less_positive hr b3, less_exact hr b4⟩
  obtain ⟨q1, q2, q3, l, c1, c2, c3, c4⟩ := C16_reset_partial h (fun o m => (hops o m).1)
    (fun o m => (hops o m).2.1) (fun o m => (hops o m).2.2) hsrt a hd ht hu (Or.inl hlb)
  rw [a3] at c1
  cases c1
  have hreset : pg1.resetSearch = pg'.resetSearch := by
    unfold SameBut at a4
    rw [a4]
    rfl
  obtain ⟨q2', G2, d1, d2, d3⟩ := op_lim (op := .reset) a5 a6 trivial trivial
  have d1' : pg'.resetSearch = .ok q2' := d1
  rw [c2] at d1'
  cases d1'
  refine ⟨pg1, q2, q3, l, a1, by rw [hreset]; exact c2, ?_, c4⟩
  rcases getMaxCliqueA_spec (grow := grow) d2 d3 hsrt ha none with ⟨p, r, e1, e2⟩ | ⟨e0, _⟩
  · rw [c3] at e1
    cases e1
    exact e2
  · exact absurd rfl e0

/-- **C103**, iteration.  The full property: a `__next__` that raises `MemoryError` gives nothing away,
and the next one goes on where it would have.  Proved, for `all_cliques(k)` with at least two vertices
per clique and an object whose searches had an `upper_bound` larger than the number of neighbours of
any vertex: whatever the heap grants to each call, the answers are those of an iterator with
enough memory, except that a call that raises `MemoryError` gives nothing or loses one clique;
only a call to which a request was refused raises it.  Missing, because false
(`C103_refuted_lost`, `C103_refuted_size`): that nothing is lost, and smaller values of
`upper_bound`. -/
theorem C103_iteration_partial (h : Usable pg n S) {steps : List (Op × Heap)}
    (hs : ∀ s ∈ steps, s.1.Legal ∧ s.1.Wide S) {k : Nat} (hk : 2 ≤ k) (heaps : List Heap) :
    ∃ pg1 pg2 pg3 E E' q as m cs, runsA grow steps pg = .ok pg1 ∧ pg1.allCliques k = .ok E ∧
      pg1.nextsA grow heaps E ⟨0, 0, none⟩ = .ok (pg2, E', q, as) ∧
      pg1.listCliques k = .ok (pg3, cs) ∧
      Merge as ((cs.map some ++ List.replicate m none).take m) ∧
      List.Forall₂ (fun h a => h = none → a ≠ .noMemory) heaps as ∧
      cs.Nodup ∧ ∀ l ∈ cs, IsCliqueList S n l ∧ l.length = k := by
  obtain ⟨G, hF⟩ := h.fresh
  obtain ⟨pg1, ops, pg', G1, a1, _, _, a4, a5, a6⟩ :=
    runsA_spec (grow := grow) steps (SameBut.refl pg) hF.pyok hF.bounds.le hs
  have a2 := a4.pyok a5
  have hnv := a2.of.nv
  obtain ⟨fuel, G2, E2, cs, b1, b2, b3, b4, b5⟩ := listCliques_end a2 k
  obtain ⟨G3, cs', c1, _, _, c2, c3, _⟩ := listCliques_spec a2 k
  rw [b3] at c1
  injection c1 with c1
  rw [Prod.mk.injEq] at c1
  obtain ⟨_, rfl⟩ := c1
  obtain ⟨pg2, E', q, as, m, cs', d1, d2, d3, d4⟩ := nextsA_spec (grow := grow)
    (Q := fun j => j = k) rfl hk a6 heaps (E := Enum.new k) ⟨0, 0, none⟩ a2.g
    (by rw [hnv, a2.nv]) (EInv.new a2.at.ok (by have := a2.pos; omega) k)
  obtain ⟨p, E'', e1⟩ := nexts_of_consume fuel b2
    (next_end (pg := { pg1 with G := some G2 }) rfl b5 b4) m
  rw [d2] at e1
  injection e1 with e1
  rw [Prod.mk.injEq, Prod.mk.injEq] at e1
  obtain ⟨_, _, rfl⟩ := e1
  exact ⟨pg1, pg2, _, _, E', q, as, m, cs, a1, b1, d1, b3, d3, d4, c2, c3⟩

/-- **C103**, answers of searches: on every object and after any history, a search either is as it
would be with all the memory in the world, or raises `MemoryError`, and that only if a request was
refused.  After a `MemoryError`, either only the list that is returned is missing, or `search_done` is
what it was and `continue_search` goes on where this search began. -/
theorem C103_answer (h : Usable pg n S) {ops : List Op} (hl : ∀ op ∈ ops, op.Legal)
    {srt : List VData → List VData} (hsrt : ∀ l, (srt l).Perm l) (a : PyGraph.Args) (hp : Heap) :
    ∃ pg1 pg2 r, runs ops pg = .ok pg1 ∧ pg1.getMaxClique srt a = .ok (pg2, r) ∧
      (pg1.getMaxCliqueA grow srt hp a = .ok (pg2, .of r) ∨
        (hp ≠ none ∧ ∃ pg3, pg1.getMaxCliqueA grow srt hp a = .ok (pg3, .noMemory) ∧
          (pg3 = pg2 ∨ pg3.finishedAll = pg1.finishedAll ∧
            pg3.currentVertex = if a.continueSearch then pg1.currentVertex else 0))) := by
  obtain ⟨G, hF⟩ := h.fresh
  obtain ⟨pg1, G1, a1, a2, _⟩ := runs_spec ops hF.pyok hl
  obtain ⟨G2, i2, b1, _⟩ := findMax_spec hsrt (bounded_ok a2.ok a)
    (if a.continueSearch = true then pg1.currentVertex else 0)
    (if a.continueSearch = true ∧ pg1.currentVertex ≠ 0 then false else a.useHeuristic)
    a.useDfs a.timeLimit
  obtain ⟨c1, _⟩ := getMaxClique_of a2 hsrt a b1
  exact ⟨pg1, _, _, a1, c1, getMaxCliqueA_either (P := hp = none) id c1⟩

/-- **C103**, answers of iterators: on every object and after any history, the answers of
`all_cliques(k)` up to the first `MemoryError` are the first cliques of the complete listing `cs`,
then `StopIteration` (`none`); and only a call to which a request was refused raises
`MemoryError`. -/
theorem C103_next (h : Usable pg n S) {ops : List Op} (hl : ∀ op ∈ ops, op.Legal) (k : Nat)
    (heaps : List Heap) :
    ∃ pg1 pg2 E cs all, runs ops pg = .ok pg1 ∧ pg1.allCliques k = .ok E ∧
      pg1.listCliques k = .ok (pg2, cs) ∧
      all = (cs.map some ++ List.replicate heaps.length none).take heaps.length ∧
      ((∃ pg3 E' q, pg1.nextsA grow heaps E ⟨0, 0, none⟩ = .ok (pg3, E', q, all.map .ret)) ∨
      ∃ pre hp post pg3 E' q, heaps = pre ++ hp :: post ∧ hp ≠ none ∧
        pg1.nextsA grow (pre ++ [hp]) E ⟨0, 0, none⟩ =
          .ok (pg3, E', q, (all.take pre.length).map .ret ++ [.noMemory])) := by
  obtain ⟨G, hF⟩ := h.fresh
  obtain ⟨pg1, G1, a1, a2, _⟩ := runs_spec ops hF.pyok hl
  obtain ⟨fuel, G2, E2, cs, b1, b2, b3, b4, b5⟩ := listCliques_end a2 k
  obtain ⟨pg3, E3, e1⟩ := nexts_of_consume fuel b2
    (next_end (pg := { pg1 with G := some G2 }) rfl b5 b4) heaps.length
  refine ⟨pg1, _, _, cs, _, a1, b1, b3, rfl, ?_⟩
  rcases nextsA_either (grow := grow) heaps ⟨0, 0, none⟩ e1 with
    ⟨q, c1⟩ | ⟨pre, hp, post, pg4, E4, q, c1, c2, c3⟩
  · exact Or.inl ⟨_, _, q, c1⟩
  · exact Or.inr ⟨pre, hp, post, pg4, E4, q, c1, c2, c3⟩

/-! ## Examples -/

namespace Sample

/-- libstdc++: a full vector doubles its capacity. -/
def doubling (n : Nat) : Nat := max 1 (2 * n)

/-- The complete graph on four vertices. -/
def fourRows : List (Nat × Nat) := [(1, 2), (1, 3), (1, 4), (2, 3), (2, 4), (3, 4)]

def four : PyGraph := get PyGraph.new (PyGraph.fromEdgelist true 64 fourRows 4)

theorem four_usable : Usable four 4 (ofPairs fourRows) := by
  have he : PyGraph.fromEdgelist true 64 fourRows 4 = .ok four := by decide +kernel
  refine ⟨.edgelist (by decide) (by decide) he, ?_, 1, 2, by decide, Or.inl (by decide)⟩
  intro G hG
  have : (four.G.map fun G => G.dangling) = some false := by decide +kernel
  rw [hG] at this
  simpa using this

/-- No vertex of a graph given by rows of vertices up to `n` has more than `n` neighbours. -/
theorem wide_of_rows {rows : List (Nat × Nat)} {n ub : Nat}
    (hr : ∀ r ∈ rows, r.1 ≤ n ∧ r.2 ≤ n) (hn : n + 1 < ub) : Wide (ofPairs rows) ub := by
  intro v X hX
  have : X ⊆ Finset.range (n + 1) := by
    intro u hu
    rw [Finset.mem_range]
    obtain ⟨_, h | h⟩ := hX u hu
    · have := (hr _ h).2; simp only at this; omega
    · have := (hr _ h).1; simp only at this; omega
  have := Finset.card_le_card this
  rw [Finset.card_range] at this
  omega

/-- The complete graph on five vertices. -/
def fiveRows : List (Nat × Nat) :=
  [(1, 2), (1, 3), (1, 4), (1, 5), (2, 3), (2, 4), (2, 5), (3, 4), (3, 5), (4, 5)]

def five : PyGraph := get PyGraph.new (PyGraph.fromEdgelist true 64 fiveRows 5)

theorem five_usable : Usable five 5 (ofPairs fiveRows) := by
  have he : PyGraph.fromEdgelist true 64 fiveRows 5 = .ok five := by decide +kernel
  refine ⟨.edgelist (by decide) (by decide) he, ?_, 1, 2, by decide, Or.inl (by decide)⟩
  intro G hG
  have : (five.G.map fun G => G.dangling) = some false := by decide +kernel
  rw [hG] at this
  simpa using this

/-- The complete graph on six vertices. -/
def sixRows : List (Nat × Nat) :=
  [(1, 2), (1, 3), (1, 4), (1, 5), (1, 6), (2, 3), (2, 4), (2, 5), (2, 6), (3, 4), (3, 5), (3, 6),
    (4, 5), (4, 6), (5, 6)]

def six : PyGraph := get PyGraph.new (PyGraph.fromEdgelist true 64 sixRows 6)

theorem six_usable : Usable six 6 (ofPairs sixRows) := by
  have he : PyGraph.fromEdgelist true 64 sixRows 6 = .ok six := by decide +kernel
  refine ⟨.edgelist (by decide) (by decide) he, ?_, 1, 2, by decide, Or.inl (by decide)⟩
  intro G hG
  have : (six.G.map fun G => G.dangling) = some false := by decide +kernel
  rw [hG] at this
  simpa using this

end Sample

/-- Every call with the default bounds on the graph on four vertices is in the scope of
`C103_search_partial`, and depending on the first request that is refused it ends in each of the ways
named there: nothing done; the heuristic done (`curMax` 4) but not the exact search; all done but no
answer; an answer. -/
example : Usable four 4 (ofPairs fourRows) ∧ Wide (ofPairs fourRows) ({} : PyGraph.Args).upperBound ∧
    [some 0, some 1, some 2, some 3, some 4, some 5, none].map (fun hp =>
      (four.getMaxCliqueA doubling byDegree hp {}).map fun x =>
        (x.2, x.1.finishedAll, x.1.currentVertex, x.1.G.map fun G => G.curMax)) =
      [.ok (.noMemory, false, 0, some 1), .ok (.noMemory, false, 0, some 4),
        .ok (.noMemory, false, 0, some 4), .ok (.noMemory, true, 5, some 4),
        .ok (.noMemory, true, 5, some 4), .ok (.ret [1, 2, 3, 4], true, 5, some 4),
        .ok (.ret [1, 2, 3, 4], true, 5, some 4)] :=
  ⟨four_usable, wide_of_rows (n := 4) (by decide) (by decide), by decide +kernel⟩

/-- A history in the scope of `C103_history_partial` and `C103_after_partial`. -/
example : (∀ s ∈ ([(.search byDegree {}, some 1), (.list 3, none),
      (.search byDegree { useHeuristic := false }, some 0)] : List (Op × Heap)),
      s.1.Legal ∧ s.1.Wide (ofPairs fourRows) ∧ s.1.Positive ∧ s.1.Exact (ofPairs fourRows) 4) ∧
    ∃ pg1 pg2 pg3, runsA doubling [(.search byDegree {}, some 1), (.list 3, none),
        (.search byDegree { useHeuristic := false }, some 0)] four = .ok pg1 ∧
      pg1.resetSearch = .ok pg2 ∧
      pg2.getMaxCliqueA doubling byDegree none {} = .ok (pg3, .ret [1, 2, 3, 4]) := by
  have hc : ∀ l, IsCliqueList (ofPairs fourRows) 4 l → l.length ≤ 0xFFFF := by
    intro l hl
    have := hl.length_le
    omega
  have ha : Wide (ofPairs fourRows) 0xFFFF := wide_of_rows (n := 4) (by decide) (by decide)
  refine ⟨?_, ?_⟩
  · intro s hs
    simp only [List.mem_cons, List.not_mem_nil, or_false] at hs
    rcases hs with rfl | rfl | rfl
    · exact ⟨byDegree_perm, ha, Nat.le_refl 1, Or.inl rfl, hc⟩
    · exact ⟨trivial, trivial, trivial, trivial⟩
    · exact ⟨byDegree_perm, ha, Nat.le_refl 1, Or.inl rfl, hc⟩
  · let x := get PyGraph.new (runsA doubling [(.search byDegree {}, some 1), (.list 3, none),
        (.search byDegree { useHeuristic := false }, some 0)] four)
    let y := get PyGraph.new x.resetSearch
    let z := get (PyGraph.new, .raise) (y.getMaxCliqueA doubling byDegree none {})
    refine ⟨x, y, z.1, ?_⟩
    decide +kernel

/-- `MemoryError` leaves `search_done` as it was: after a complete search and one from the beginning
that failed at once, it is still true. -/
example : (four.getMaxClique byDegree {} >>= fun x =>
      x.1.getMaxCliqueA doubling byDegree (some 0) {} >>= fun y =>
      .ok (y.2, y.1.finishedAll, y.1.currentVertex)) = .ok (.noMemory, true, 0) := by
  decide +kernel

/-- An iteration in the scope of `C103_iteration_partial`: the first call gives nothing away. -/
example : Usable five 5 (ofPairs fiveRows) ∧
    (five.nextsA doubling [some 1, some 4, none, some 2, none, none] (Enum.new 3) ⟨0, 0, none⟩ >>=
      fun x => .ok x.2.2.2) =
    .ok [.noMemory, .ret (some [2, 3, 4]), .ret (some [2, 3, 5]), .ret (some [2, 4, 5]),
      .ret (some [3, 4, 5]), .ret none] :=
  ⟨five_usable, by decide +kernel⟩

/-- Calls in the scope of `C103_answer` and `C103_next` but not of the theorems with `_partial`: a
small `upper_bound`, which makes a vector grow during the search; cliques of one vertex. -/
example : Usable six 6 (ofPairs sixRows) ∧
    [some 1, some 2, some 3, some 5, some 6].map (fun hp =>
      (six.getMaxCliqueA doubling byDegree hp { upperBound := 2, useHeuristic := false }).map
        fun x => x.2) =
      [.ok .noMemory, .ok .noMemory, .ok .noMemory, .ok .noMemory,
        .ok (.ret [1, 2, 3, 4, 5, 6])] ∧
    (runs [.search byDegree { upperBound := 2 }] six >>= fun pg =>
      pg.nextsA doubling [some 2, none, some 1] (Enum.new 1) ⟨0, 0, none⟩ >>= fun x =>
        .ok x.2.2.2) = .ok [.ret (some [1]), .ret (some [2]), .noMemory] :=
  ⟨six_usable, by decide +kernel, by decide +kernel⟩

/-! ## What is false -/

/-- **C103** fails after searches with a small `upper_bound`: `states.push_back` then needs more memory
than was reserved; if that is refused, the scratch space is not given back.  After two such calls an
ordinary search with enough memory runs out of the object's memory. -/
theorem C103_refuted : Usable four 4 (ofPairs fourRows) ∧
    ∃ pg1 pg2, four.getMaxCliqueA doubling byDegree (some 2)
        { upperBound := 2, useHeuristic := false } = .ok (pg1, .noMemory) ∧
      pg1.getMaxCliqueA doubling byDegree (some 2) { upperBound := 2, useHeuristic := false } =
        .ok (pg2, .noMemory) ∧
      pg2.getMaxCliqueA doubling byDegree none { useHeuristic := false } = .error .ub := by
  refine ⟨four_usable, ?_⟩
  let x := get (PyGraph.new, .raise) (four.getMaxCliqueA doubling byDegree (some 2)
    { upperBound := 2, useHeuristic := false })
  let y := get (PyGraph.new, .raise) (x.1.getMaxCliqueA doubling byDegree (some 2)
    { upperBound := 2, useHeuristic := false })
  refine ⟨x.1, y.1, ?_⟩
  decide +kernel

/-- **C103** fails for iterators: a `__next__` that finds a clique but has no memory for the list it
would return loses the clique; `[2, 3, 5]` is never given. -/
theorem C103_refuted_lost : Usable five 5 (ofPairs fiveRows) ∧
    (five.nextsA doubling [none, some 0, none, none, none] (Enum.new 3) ⟨0, 0, none⟩ >>=
      fun x => .ok x.2.2.2) =
      .ok [.ret (some [2, 3, 4]), .noMemory, .ret (some [2, 4, 5]), .ret (some [3, 4, 5]),
        .ret none] ∧
    (five.nexts 5 (Enum.new 3) >>= fun x => .ok x.2.2) =
      .ok [some [2, 3, 4], some [2, 3, 5], some [2, 4, 5], some [3, 4, 5], none] :=
  ⟨five_usable, by decide +kernel, by decide +kernel⟩

/-- **C103** fails for iterators of an object that was searched with a small `upper_bound`: after a
`MemoryError`, `all_cliques(4)` gives a clique of five vertices. -/
theorem C103_refuted_size : Usable six 6 (ofPairs sixRows) ∧
    (runs [.search byDegree { upperBound := 2 }] six >>= fun pg =>
      pg.nextsA doubling [some 2, none] (Enum.new 4) ⟨0, 0, none⟩ >>= fun x => .ok x.2.2.2) =
      .ok [.noMemory, .ret (some [2, 3, 4, 5, 6])] :=
  ⟨six_usable, by decide +kernel⟩

end CM
