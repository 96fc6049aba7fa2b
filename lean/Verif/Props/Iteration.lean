import Verif.Lemmas.Held
import Verif.Lemmas.Iterated
import Verif.Lemmas.Mono
import Verif.Props.Sample

/-!
# C18-C24: iteration, and the memory both kinds of search use

As in `Verif.Props.MaxClique`, `Usable pg n S` says that `pg` was returned by a loader for the
graph `S` on `1 .. n`, that `S` has an edge and that loading left the buffer in place.
`listCliques k` is `list(G.all_cliques(k))`.
-/

namespace CM

open Spec Graph

open Sample (byDegree byDegree_perm)

variable {pg : PyGraph} {n : Nat} {S : SimpleGraph Nat}

/-! ## C18 -/

theorem lists_spec : ∀ (ks : List Nat) {pg : PyGraph} {G : Graph}, PyOk pg n S G →
    ∃ G', runs (ks.map Op.list) pg = .ok { pg with G := some G' } ∧
      PyOk { pg with G := some G' } n S G' ∧ Core G G' := by
  intro ks
  induction ks with
  | nil =>
    intro pg G h
    have hpg : pg = { pg with G := some G } := by rw [← h.g]
    refine ⟨G, ?_, ?_, Core.refl _⟩
    · rw [← hpg]; rfl
    · rw [← hpg]; exact h
  | cons k ks ih =>
    intro pg G h
    obtain ⟨G1, cs, a1, a2, a3, _⟩ := listCliques_spec h k
    obtain ⟨G2, b1, b2, b3⟩ := ih (pg := { pg with G := some G1 }) (G := G1)
      ⟨rfl, h.nv, h.pos, a2, h.of.frame a3.frame⟩
    refine ⟨G2, ?_, b2, a3.toCore.trans b3⟩
    rw [List.map_cons, runs_cons]
    show ((pg.listCliques k >>= _) >>= _) = _
    rw [a1, ok_bind, ok_bind, b1]

/-- **C18**, as far as it is true.  The full property: consuming `all_cliques` iterators does
not change the size of what a later `get_max_clique` returns.  Proved: consuming any number of
them on a freshly loaded graph does not prevent the first search from returning a maximum clique
(after a `reset_search`, see `C16_reset_partial`).  Missing, because false (`C18_refuted`):
iterations after a search. -/
theorem C18_iterate_first_partial (h : Usable pg n S) (ks : List Nat)
    {srt : List VData → List VData} (hsrt : ∀ l, (srt l).Perm l) (a : PyGraph.Args)
    (hd : a.useDfs = true) (ht : a.timeLimit = none)
    (hu : ∀ l, IsCliqueList S n l → l.length ≤ a.upperBound) (hlb : a.lowerBound = 1) :
    ∃ pg1 pg2 l, runs (ks.map Op.list) pg = .ok pg1 ∧
      pg1.getMaxClique srt a = .ok (pg2, .ret l) ∧ IsMaxCliqueList S n l := by
  obtain ⟨G, hF⟩ := h.fresh
  obtain ⟨G1, a1, a2, a3⟩ := lists_spec ks hF.pyok
  obtain ⟨pg2, l, b1, b2, _⟩ := search_honest a2
    (by unfold Honest; rw [a3.cm, hF.cm]; exact Nat.zero_le _) hsrt a
    (McsOk.congr a3.frame (by rw [a3.lim]) (fun v => by simp only [V, a3.vs]) hF.mcs)
    (by rw [a3.lim]; exact hF.lim) (by rw [a3.loc]; exact hF.loc) (by omega) hd (Or.inl ht)
    (Or.inl ht) hu (Or.inl hlb)
  exact ⟨_, pg2, l, a1, b1, b2⟩

/-- **C18**, as far as it is true, for iterations between searches.  Proved: after any history of
searches with default `lower_bound` that were not cut short, resets and complete iterations over
any sizes, an exact search returns a clique which is a maximum clique, or has exactly as many
members as the cliques of one of the iterations.  Missing, because false (`C18_refuted`): that
the second case never occurs. -/
theorem C18_sizes_partial (h : Usable pg n S) {ops : List Op} (hl : ∀ op ∈ ops, op.Legal)
    (he : ∀ op ∈ ops, op.Exact S n) (hb : ∀ op ∈ ops, op.Unbounded)
    {srt : List VData → List VData} (hsrt : ∀ l, (srt l).Perm l) (a : PyGraph.Args)
    (hd : a.useDfs = true) (ht : a.timeLimit = none)
    (hu : ∀ l, IsCliqueList S n l → l.length ≤ a.upperBound) (hlb : a.lowerBound = 1) :
    ∃ pg1 pg2 l, runs ops pg = .ok pg1 ∧ pg1.getMaxClique srt a = .ok (pg2, .ret l) ∧
      IsCliqueList S n l ∧ (IsMaxCliqueList S n l ∨ Op.list l.length ∈ ops) := by
  obtain ⟨G, hF⟩ := h.fresh
  obtain ⟨pg1, G1, a1, a2, a3, a4⟩ := runs_honestBut (Q := fun k => Op.list k ∈ ops) ops hF.pyok
    (Or.inl (by rw [hF.cm]; exact Nat.zero_le _)) hF.loc hl hb (fun _ hk => hk)
  obtain ⟨pg1', G1', b1, b2, _, _, _, b4⟩ := runs_spec ops hF.pyok hl
  rw [a1] at b1
  injection b1 with b1
  subst b1
  have hG : G1 = G1' := by
    have := a2.g.symm.trans b2.g
    injection this
  subst hG
  obtain ⟨c1, c2⟩ := b4 he hF.mcs hF.lim
  obtain ⟨pg2, l, d1, d2, d3⟩ := search_honestBut a2 a3 hsrt a c1 c2 a4 hlb hd ht hu
  exact ⟨pg1, pg2, l, a1, d1, d2, d3⟩

/-- **C18** for iterations over sizes no smaller than the clique number, such as
`all_cliques(len(G.get_max_clique()))`: they may come anywhere, also between searches. -/
theorem C18_largest_partial (h : Usable pg n S) {ops : List Op} (hl : ∀ op ∈ ops, op.Legal)
    (he : ∀ op ∈ ops, op.Exact S n) (hb : ∀ op ∈ ops, op.Unbounded)
    (hk : ∀ k, Op.list k ∈ ops → ∀ l, IsCliqueList S n l → l.length ≤ k)
    {srt : List VData → List VData} (hsrt : ∀ l, (srt l).Perm l) (a : PyGraph.Args)
    (hd : a.useDfs = true) (ht : a.timeLimit = none)
    (hu : ∀ l, IsCliqueList S n l → l.length ≤ a.upperBound) (hlb : a.lowerBound = 1) :
    ∃ pg1 pg2 l, runs ops pg = .ok pg1 ∧ pg1.getMaxClique srt a = .ok (pg2, .ret l) ∧
      IsMaxCliqueList S n l := by
  obtain ⟨pg1, pg2, l, a1, a2, a3, a4⟩ := C18_sizes_partial h hl he hb hsrt a hd ht hu hlb
  refine ⟨pg1, pg2, l, a1, a2, ?_⟩
  rcases a4 with a4 | a4
  · exact a4
  · exact ⟨a3, hk _ a4⟩

/-- **C18** fails: on the kite a default search returns four vertices; after
`list(G.all_cliques(1))` it returns one. -/
theorem C18_refuted : Usable Sample.kite 5 (ofPairs Sample.rows) ∧
    ∃ pg1 pg2 pg3 cs, Sample.kite.getMaxClique byDegree {} = .ok (pg1, .ret [1, 2, 3, 4]) ∧
      pg1.listCliques 1 = .ok (pg2, cs) ∧
      pg2.getMaxClique byDegree {} = .ok (pg3, .ret [1]) := by
  refine ⟨Sample.kite_usable, ?_⟩
  let x := Sample.get (PyGraph.new, .raise) (Sample.kite.getMaxClique byDegree {})
  let y := Sample.get (PyGraph.new, []) (x.1.listCliques 1)
  let z := Sample.get (PyGraph.new, .raise) (y.1.getMaxClique byDegree {})
  refine ⟨x.1, y.1, z.1, y.2, ?_⟩
  decide +kernel

example : ∃ pg1 pg2 l, runs [.list 1, .list 3, .list 2] Sample.kite = .ok pg1 ∧
    pg1.getMaxClique byDegree {} = .ok (pg2, .ret l) ∧
    IsMaxCliqueList (ofPairs Sample.rows) 5 l :=
  C18_iterate_first_partial Sample.kite_usable [1, 3, 2] byDegree_perm {} rfl rfl
    (fun _ hl => Nat.le_trans hl.length_le (by decide)) rfl

/-- The run of `C18_refuted` is an instance of `C18_sizes_partial`. -/
example : ∃ pg1 pg2 l, runs [.search byDegree {}, .list 1] Sample.kite = .ok pg1 ∧
    pg1.getMaxClique byDegree {} = .ok (pg2, .ret l) ∧ IsCliqueList (ofPairs Sample.rows) 5 l ∧
    (IsMaxCliqueList (ofPairs Sample.rows) 5 l ∨ Op.list l.length ∈ [.search byDegree {}, .list 1]) :=
  C18_sizes_partial (ops := [.search byDegree {}, .list 1]) Sample.kite_usable
    (by simp [Op.Legal, byDegree_perm])
    (by
      simp only [List.mem_cons, List.not_mem_nil, or_false, forall_eq_or_imp, forall_eq, Op.Exact,
        and_true, true_or, true_and]
      exact fun _ hl => Nat.le_trans hl.length_le (by decide))
    (by simp [Op.Unbounded]) byDegree_perm {} rfl rfl
    (fun _ hl => Nat.le_trans hl.length_le (by decide)) rfl

/-- Searching, iterating over sizes of five and six and searching again. -/
example : ∃ pg1 pg2 l, runs [.search byDegree {}, .list 5, .list 6] Sample.kite = .ok pg1 ∧
    pg1.getMaxClique byDegree {} = .ok (pg2, .ret l) ∧
    IsMaxCliqueList (ofPairs Sample.rows) 5 l :=
  C18_largest_partial (ops := [.search byDegree {}, .list 5, .list 6]) Sample.kite_usable
    (by simp [Op.Legal, byDegree_perm])
    (by
      simp only [List.mem_cons, List.not_mem_nil, or_false, forall_eq_or_imp, forall_eq, Op.Exact,
        and_true, true_or, true_and]
      exact fun _ hl => Nat.le_trans hl.length_le (by decide))
    (by simp [Op.Unbounded])
    (by
      intro k hk l hl
      simp only [List.mem_cons, List.not_mem_nil, or_false, reduceCtorEq, false_or,
        Op.list.injEq] at hk
      have := hl.length_le
      omega)
    byDegree_perm {} rfl rfl
    (fun _ hl => Nat.le_trans hl.length_le (by decide)) rfl

/-! ## C19 -/

/-- **C19**: after any history of searches, resets and complete iterations, consuming
`all_cliques(k)` yields only cliques with exactly `k` vertices, and none of them twice. -/
theorem C19_sound (h : Usable pg n S) {ops : List Op} (hl : ∀ op ∈ ops, op.Legal) (k : Nat) :
    ∃ pg1 pg2 cs, runs ops pg = .ok pg1 ∧ pg1.listCliques k = .ok (pg2, cs) ∧ cs.Nodup ∧
      ∀ l ∈ cs, IsCliqueList S n l ∧ l.length = k := by
  obtain ⟨G, hF⟩ := h.fresh
  obtain ⟨pg1, G1, a1, a2, _⟩ := runs_spec ops hF.pyok hl
  obtain ⟨G2, cs, b1, _, _, b2, b3, _⟩ := listCliques_spec a2 k
  exact ⟨pg1, _, cs, a1, b1, b2, b3⟩

/-! ## C20 -/

/-- **C20**, as far as it is true.  The full property: `all_cliques(k)`, `k ≥ 1`, yields every
clique with `k` vertices.  Proved: it yields exactly the cliques of `k` vertices except,
if `k ≥ 2`, those in which vertex `1` has the fewest neighbours (the smallest id among ties).
This holds after any history of resets, complete iterations and searches that were not cut
short.  Missing, because false (`C20_refuted`): the excepted cliques. -/
theorem C20_complete_partial (h : Usable pg n S) {ops : List Op} (hl : ∀ op ∈ ops, op.Legal)
    (he : ∀ op ∈ ops, op.Exact S n) {k : Nat} (hk : 1 ≤ k) :
    ∃ pg1 pg2 cs, runs ops pg = .ok pg1 ∧ pg1.listCliques k = .ok (pg2, cs) ∧
      ∀ l, l ∈ cs ↔ IsCliqueList S n l ∧ l.length = k ∧ (2 ≤ k → ¬ First S n 1 l) := by
  obtain ⟨G, hF⟩ := h.fresh
  obtain ⟨pg1, G1, a1, a2, _, _, _, a4⟩ := runs_spec ops hF.pyok hl
  obtain ⟨c1, c2⟩ := a4 he hF.mcs hF.lim
  obtain ⟨G2, cs, b1, _, _, _, b3, b4, b5, _, b6⟩ := listCliques_spec a2 k
  refine ⟨pg1, _, cs, a1, b1, ?_⟩
  intro l
  constructor
  · intro hm
    exact ⟨(b3 l hm).1, (b3 l hm).2, fun h2 => b4 h2 l hm⟩
  · rintro ⟨d1, d2, d3⟩
    rcases Nat.lt_or_ge k 2 with h2 | h2
    · rw [b5 (by omega), List.mem_map]
      obtain ⟨v, rfl⟩ := List.length_eq_one_iff.1 (show l.length = 1 by omega)
      have := d1.range v (by simp)
      exact ⟨v, List.mem_range'_1.2 (by omega), rfl⟩
    · exact b6 c1 (by have := c2 l d1; omega) h2 l d1 d2 (d3 h2)

/-- Part of **C20** without reference to degrees: every clique that avoids vertex `1` is
yielded, and so is every single vertex. -/
theorem C20_without_one_partial (h : Usable pg n S) {ops : List Op} (hl : ∀ op ∈ ops, op.Legal)
    (he : ∀ op ∈ ops, op.Exact S n) {k : Nat} (hk : 1 ≤ k) :
    ∃ pg1 pg2 cs, runs ops pg = .ok pg1 ∧ pg1.listCliques k = .ok (pg2, cs) ∧
      ∀ l, IsCliqueList S n l → l.length = k → (k = 1 ∨ 1 ∉ l) → l ∈ cs := by
  obtain ⟨pg1, pg2, cs, h1, h2, h3⟩ := C20_complete_partial h hl he hk
  refine ⟨pg1, pg2, cs, h1, h2, fun l a b c => (h3 l).2 ⟨a, b, fun hk2 hf => ?_⟩⟩
  rcases c with c | c
  · omega
  · exact c hf.1

namespace Sample

def triangleRows : List (Nat × Nat) := [(1, 2), (1, 3), (2, 3)]

def triangle : PyGraph := get PyGraph.new (PyGraph.fromEdgelist true 64 triangleRows 3)

theorem triangle_eq : PyGraph.fromEdgelist true 64 triangleRows 3 = .ok triangle := by
  decide +kernel

theorem triangle_usable : Usable triangle 3 (ofPairs triangleRows) := by
  refine ⟨.edgelist (by decide) (by decide) triangle_eq, ?_, 1, 2, by decide, Or.inl (by decide)⟩
  intro G hG
  have : (triangle.G.map fun G => G.dangling) = some false := by decide +kernel
  rw [hG] at this
  simpa using this

theorem triangle_clique : IsCliqueList (ofPairs triangleRows) 3 [1, 2, 3] := by
  refine ⟨by decide, by decide, ?_⟩
  intro u hu v hv hne
  simp only [List.mem_cons, List.not_mem_nil, or_false, Set.mem_ofPred_eq] at hu hv
  refine ⟨hne, ?_⟩
  rcases hu with rfl | rfl | rfl <;> rcases hv with rfl | rfl | rfl <;>
    first | exact absurd rfl hne | decide

end Sample

/-- **C20** fails: `list(G.all_cliques(3))` on a triangle is empty. -/
theorem C20_refuted : Usable Sample.triangle 3 (ofPairs Sample.triangleRows) ∧
    IsCliqueList (ofPairs Sample.triangleRows) 3 [1, 2, 3] ∧
    ∃ pg1, Sample.triangle.listCliques 3 = .ok (pg1, []) := by
  refine ⟨Sample.triangle_usable, Sample.triangle_clique,
    (Sample.get (PyGraph.new, []) (Sample.triangle.listCliques 3)).1, ?_⟩
  decide +kernel

/-- What `C20_complete_partial` promises on the kite is not empty. -/
example : (Sample.kite.listCliques 2 >>= fun x => .ok x.2) =
      .ok [[2, 3], [2, 4], [3, 4], [4, 5]] ∧
    (Sample.kite.listCliques 3 >>= fun x => .ok x.2) = .ok [[2, 3, 4]] := by
  decide +kernel

/-! ## C21 -/

/-- **C21**: after any history, the answers to any number `m` of `next()` calls on a
new `all_cliques(k)` iterator are the first `m` of a finite list of cliques, that of
`list(G.all_cliques(k))`, followed by `StopIteration` (`none`) for ever. -/
theorem C21_terminates (h : Usable pg n S) {ops : List Op} (hl : ∀ op ∈ ops, op.Legal) (k : Nat) :
    ∃ pg1 pg2 E cs, runs ops pg = .ok pg1 ∧ pg1.allCliques k = .ok E ∧
      pg1.listCliques k = .ok (pg2, cs) ∧
      ∀ m, ∃ pg' E', PyGraph.nexts m pg1 E =
        .ok (pg', E', (cs.map some ++ List.replicate m none).take m) := by
  obtain ⟨G, hF⟩ := h.fresh
  obtain ⟨pg1, G1, a1, a2, _⟩ := runs_spec ops hF.pyok hl
  obtain ⟨fuel, G2, E', cs, b1, b2, b3, b4, b5⟩ := listCliques_end a2 k
  refine ⟨pg1, _, _, cs, a1, b1, b3, fun m => ?_⟩
  exact nexts_of_consume fuel b2 (next_end (pg := { pg1 with G := some G2 }) rfl b5 b4) m

example : (PyGraph.nexts 7 Sample.kite (Enum.new 2) >>= fun x => .ok x.2.2) =
    .ok [some [2, 3], some [2, 4], some [3, 4], some [4, 5], none, none, none] := by
  decide +kernel

/-! ## C22 -/

/-- **C22**, as far as it is true.  The full property: no search ever accesses memory outside
the graph's buffers.  Accesses outside a buffer, through a stale pointer or a null pointer
are the outcome `error ub` of the model, and a `for` that does not end is `error fuel`.
Proved: none of these happens in any sequence of searches, resets and complete iterations (with
any bounds, flags and clocks) on a graph with an edge whose buffer was not moved by the
constructor.  `C22_one_iterator_partial` adds programs that hold or abandon one iterator,
`C22_programs_partial` (Props/Loops.lean) nested loops and several abandoned iterators.
Missing, because false: graphs without edges (`C22_refuted_edgeless`), moved buffers
(`C22_refuted_moved`), any number of abandoned iterators (`C22_refuted_abandoned`) and searches with a
time limit while an iterator is held (`C22_refuted_timed`). -/
theorem C22_no_fault_partial (h : Usable pg n S) {ops : List Op} (hl : ∀ op ∈ ops, op.Legal) :
    ∃ pg1, runs ops pg = .ok pg1 := by
  obtain ⟨G, hF⟩ := h.fresh
  obtain ⟨pg1, _, a1, _⟩ := runs_spec ops hF.pyok hl
  exact ⟨pg1, a1⟩

namespace Sample

def edgeless : PyGraph := get PyGraph.new (PyGraph.fromEdgelist true 64 [] 3)

theorem edgeless_eq : PyGraph.fromEdgelist true 64 [] 3 = .ok edgeless := by decide +kernel

/-- `from_edgelist([[1, 2]], 2)` with the capacity libstdc++ chooses: the edge buffer grew to
six words, and the constructor's final `resize` needs more. -/
def moved : PyGraph := get PyGraph.new (PyGraph.fromEdgelist true 6 [(1, 2)] 2)

theorem moved_eq : PyGraph.fromEdgelist true 6 [(1, 2)] 2 = .ok moved := by decide +kernel

end Sample

namespace Sample

/-- A triangle and an isolated vertex. -/
def looseRows : List (Nat × Nat) := [(2, 3), (2, 4), (3, 4)]

def loose : PyGraph := get PyGraph.new (PyGraph.fromEdgelist true 64 looseRows 4)

theorem loose_eq : PyGraph.fromEdgelist true 64 looseRows 4 = .ok loose := by decide +kernel

theorem loose_usable : Usable loose 4 (ofPairs looseRows) := by
  refine ⟨.edgelist (by decide) (by decide) loose_eq, ?_, 2, 3, by decide, Or.inl (by decide)⟩
  intro G hG
  have : (loose.G.map fun G => G.dangling) = some false := by decide +kernel
  rw [hG] at this
  simpa using this

end Sample

/-- **C22** fails on a graph without edges, even one whose buffer is in place. -/
theorem C22_refuted_edgeless : Loaded Sample.edgeless 3 (ofPairs []) ∧
    BufferKept Sample.edgeless ∧
    Sample.edgeless.getMaxClique byDegree {} = .error .ub := by
  refine ⟨.edgelist (by decide) (by decide) Sample.edgeless_eq, ?_, ?_⟩
  · intro G hG
    have : (Sample.edgeless.G.map fun G => G.dangling) = some false := by decide +kernel
    rw [hG] at this
    simpa using this
  · have : (match Sample.edgeless.getMaxClique byDegree {} with
      | .error .ub => true | _ => false) = true := by decide +kernel
    revert this
    split
    · rename_i e; intro _; exact e
    · intro h; cases h

/-- **C22** fails if the constructor's `resize` moves the buffer. -/
theorem C22_refuted_moved : Loaded Sample.moved 2 (ofPairs [(1, 2)]) ∧
    (ofPairs [(1, 2)]).Adj 1 2 ∧
    Sample.moved.getMaxClique byDegree {} = .error .ub := by
  refine ⟨.edgelist (by decide) (by decide) Sample.moved_eq, ⟨by decide, Or.inl (by decide)⟩, ?_⟩
  have : (match Sample.moved.getMaxClique byDegree {} with
      | .error .ub => true | _ => false) = true := by decide +kernel
  revert this
  split
  · rename_i e; intro _; exact e
  · intro h; cases h

/-- Create `m` iterators over cliques of size `k` one after the other, ask each for one
clique and drop it. -/
def abandon (k : Nat) : Nat → PyGraph → M (PyGraph × List (Option (List Nat)))
  | 0, pg => .ok (pg, [])
  | m + 1, pg => do
    let E ← pg.allCliques k
    let (pg, _, c) ← pg.nextClique E
    let (pg, cs) ← abandon k m pg
    .ok (pg, c :: cs)

/-- **C22** fails when iterators are abandoned: on the kite, `next(G.all_cliques(3))` works
four times; the fifth runs out of the scratch memory the first four did not give back. -/
theorem C22_refuted_abandoned : Usable Sample.kite 5 (ofPairs Sample.rows) ∧
    (abandon 3 4 Sample.kite >>= fun x => .ok x.2) =
      .ok [some [2, 3, 4], some [2, 3, 4], some [2, 3, 4], some [2, 3, 4]] ∧
    (abandon 3 5 Sample.kite >>= fun x => .ok x.2) = .error .ub :=
  ⟨Sample.kite_usable, by decide +kernel, by decide +kernel⟩

/-- **C22** fails when an iterator is held and a search has a time limit: on three connected
vertices and an isolated one, the recursive search needs all of the scratch memory. -/
theorem C22_refuted_timed : Usable Sample.loose 4 (ofPairs Sample.looseRows) ∧
    (acts [.next] Sample.loose (Enum.new 3) >>= fun x => .ok (Seen.answers x.2.2)) =
      .ok [some [2, 3, 4]] ∧
    (acts [.next, .call (.search byDegree { timeLimit := some none, useHeuristic := false })]
      Sample.loose (Enum.new 3) >>= fun x => .ok (Seen.answers x.2.2)) = .error .ub :=
  ⟨Sample.loose_usable, by decide +kernel, by decide +kernel⟩

/-- **C22** for programs that create one iterator, ask it for cliques whenever they like, and make
any complete calls in between, searches without a time limit among them.  The iterator need not be
asked to the end: a program that abandons it is one that has no further `next`.  `upper_bound` must
not be below the clique number; see `C24_nested_partial` for what the calls return. -/
theorem C22_one_iterator_partial (h : Usable pg n S) {ops : List Op} (hl : ∀ op ∈ ops, op.Legal)
    (he : ∀ op ∈ ops, op.Exact S n) (k : Nat) {xs : List Act}
    (hx : ∀ op, Act.call op ∈ xs → op.Legal ∧ op.Exact S n ∧ op.Untimed) :
    ∃ pg1 E x, runs ops pg = .ok pg1 ∧ pg1.allCliques k = .ok E ∧ acts xs pg1 E = .ok x := by
  obtain ⟨G, hF⟩ := h.fresh
  obtain ⟨pg1, G1, a1, a2, _, _, _, a6⟩ := runs_spec ops hF.pyok hl
  obtain ⟨a7, a8⟩ := a6 he hF.mcs hF.lim
  obtain ⟨T, b1, b2, _⟩ := Held.new (Sd := False) (Q := fun _ => True) a2 a7 a8 (fun f => f.elim) k
  obtain ⟨pg2, E2, ss, _, c1, _⟩ := acts_spec trivial xs b2
    (fun op ho => ⟨(hx op ho).1, (hx op ho).2.1, (hx op ho).2.2, fun f => f.elim⟩)
    (fun _ _ => trivial)
  exact ⟨pg1, Enum.new k, _, a1, b1, c1⟩

/-- The hypotheses of `C22_one_iterator_partial` are met. -/
example : ∃ pg1 E x, runs [.search byDegree {}] Sample.kite = .ok pg1 ∧
    pg1.allCliques 3 = .ok E ∧
    acts [.next, .call (.list 2), .call (.search byDegree {}), .call .reset] pg1 E = .ok x :=
  C22_one_iterator_partial Sample.kite_usable (by simp [Op.Legal, byDegree_perm])
    (by
      intro op hop
      simp only [List.mem_singleton] at hop
      subst hop
      exact ⟨Or.inl rfl, fun l hl => Nat.le_trans hl.length_le (by decide)⟩) 3
    (by
      intro op hop
      simp only [List.mem_cons, Act.call.injEq, reduceCtorEq, List.not_mem_nil, or_false,
        false_or] at hop
      rcases hop with rfl | rfl | rfl
      · exact ⟨trivial, trivial, trivial⟩
      · exact ⟨byDegree_perm, ⟨Or.inl rfl, fun l hl => Nat.le_trans hl.length_le (by decide)⟩, rfl⟩
      · exact ⟨trivial, trivial, trivial⟩)

/-! ## C23 -/

/-- **C23**: after any sequence of searches, resets and complete iterations the scratch part
of the buffer is entirely free (the next allocation starts at its beginning) and every word
of it is zero. -/
theorem C23_memory_returned (h : Usable pg n S) {ops : List Op} (hl : ∀ op ∈ ops, op.Legal) :
    ∃ pg1 G, runs ops pg = .ok pg1 ∧ pg1.G = some G ∧ G.searchCur = G.searchStart ∧
      ∀ i, G.searchStart ≤ i → G.eb.getD i 0#64 = 0#64 := by
  obtain ⟨G, hF⟩ := h.fresh
  obtain ⟨pg1, G1, a1, a2, _⟩ := runs_spec ops hF.pyok hl
  refine ⟨pg1, G1, a1, a2.g, a2.ok.cur, ?_⟩
  intro i hi
  have hs := a2.ok.wf.start
  apply BitVec.eq_of_getMsbD_eq
  intro j hj
  have := a2.ok.zero (64 * i + j) (by omega)
  unfold bitAt at this
  have e1 : (64 * i + j) / 64 = i := by omega
  have e2 : (64 * i + j) % 64 = j := by omega
  rw [e1, e2] at this
  rw [this]
  simp

/-! ## C24 -/

namespace Sample

def diamondRows : List (Nat × Nat) := [(1, 2), (1, 3), (2, 3), (1, 4), (2, 4)]

def diamond : PyGraph := get PyGraph.new (PyGraph.fromEdgelist true 64 diamondRows 4)

theorem diamond_eq : PyGraph.fromEdgelist true 64 diamondRows 4 = .ok diamond := by
  decide +kernel

theorem diamond_usable : Usable diamond 4 (ofPairs diamondRows) := by
  refine ⟨.edgelist (by decide) (by decide) diamond_eq, ?_, 1, 2, by decide, Or.inl (by decide)⟩
  intro G hG
  have : (diamond.G.map fun G => G.dangling) = some false := by decide +kernel
  rw [hG] at this
  simpa using this

end Sample

/-- **C24**, as far as it is true.  The full property: iterators on one graph do not influence
each other or searches.  Proved: iterators consumed one after the other, with resets,
iterations and searches that are not cut short in between, yield the same cliques.
`C24_nested_partial` has programs that make other calls while they hold an iterator, and
`C24_programs_partial` (Props/Loops.lean) loops inside loops.
Missing, because false (`C24_refuted`): interleaving two iterators. -/
theorem C24_sequential_partial (h : Usable pg n S) {ops ops' : List Op}
    (hl : ∀ op ∈ ops, op.Legal) (he : ∀ op ∈ ops, op.Exact S n)
    (hl' : ∀ op ∈ ops', op.Legal) (he' : ∀ op ∈ ops', op.Exact S n) (k : Nat) :
    ∃ pg1 pg2 pg3 pg4 cs cs', runs ops pg = .ok pg1 ∧ pg1.listCliques k = .ok (pg2, cs) ∧
      runs ops' pg2 = .ok pg3 ∧ pg3.listCliques k = .ok (pg4, cs') ∧ cs.Perm cs' := by
  rcases Nat.eq_zero_or_pos k with rfl | hk
  · obtain ⟨G, hF⟩ := h.fresh
    obtain ⟨pg1, G1, a1, a2, _⟩ := runs_spec ops hF.pyok hl
    obtain ⟨G2, cs, b1, b2, b3, _, _, _, _, b4, _⟩ := listCliques_spec a2 0
    obtain ⟨pg3, G3, c1, c2, _⟩ := runs_spec ops' (pg := { pg1 with G := some G2 }) (G := G2)
      ⟨rfl, a2.nv, a2.pos, b2, a2.of.frame b3.frame⟩ hl'
    obtain ⟨G4, cs', d1, _, _, _, _, _, _, d4, _⟩ := listCliques_spec c2 0
    exact ⟨pg1, _, pg3, _, cs, cs', a1, b1, c1, d1, by rw [b4 rfl, d4 rfl]⟩
  · obtain ⟨pg1, pg2, cs, a1, a2, a3⟩ := C20_complete_partial h hl he hk
    obtain ⟨pg3, pg4, cs', b1, b2, b3⟩ := C20_complete_partial (ops := ops ++ .list k :: ops') h
      (by
        intro op hop
        rcases List.mem_append.1 hop with hop | hop
        · exact hl op hop
        · rcases List.mem_cons.1 hop with rfl | hop
          · trivial
          · exact hl' op hop)
      (by
        intro op hop
        rcases List.mem_append.1 hop with hop | hop
        · exact he op hop
        · rcases List.mem_cons.1 hop with rfl | hop
          · trivial
          · exact he' op hop) hk
    obtain ⟨_, _, _, c1, c2, c3, _⟩ := C19_sound h hl k
    rw [a1] at c1
    injection c1 with c1
    subst c1
    rw [a2] at c2
    injection c2 with c2
    injection c2 with c2 c2'
    subst c2'
    have hrun : runs (ops ++ .list k :: ops') pg = runs ops' pg2 := by
      rw [runs_append, a1, ok_bind, runs_cons]
      show ((pg1.listCliques k >>= _) >>= _) = _
      rw [a2, ok_bind, ok_bind]
    obtain ⟨_, _, _, d1, d2, d3, _⟩ := C19_sound (ops := ops ++ .list k :: ops') h
      (by
        intro op hop
        rcases List.mem_append.1 hop with hop | hop
        · exact hl op hop
        · rcases List.mem_cons.1 hop with rfl | hop
          · trivial
          · exact hl' op hop) k
    rw [b1] at d1
    injection d1 with d1
    subst d1
    rw [b2] at d2
    injection d2 with d2
    injection d2 with d2 d2'
    subst d2'
    refine ⟨pg1, pg2, pg3, pg4, cs, cs', a1, a2, by rw [← hrun]; exact b1, b2, ?_⟩
    rw [List.perm_ext_iff_of_nodup c3 d3]
    intro l
    rw [a3, b3]

/-- **C24** for programs that make other calls while they hold an iterator.  After any history,
a program creates an iterator over the cliques of size `k`, and then does any actions `xs`: it
asks the iterator for a clique, or makes a complete call (a reset, a whole iteration over
cliques of any size, or a search without a time limit).  Proved: nothing faults;
the iterator's answers are those it gives without the other calls, namely each clique of size
`k` once (but for the defect of C20) and then `StopIteration` for ever; each complete iteration
yields exactly its cliques; and, if all searches had the default `lower_bound`, each search
returns a clique, which for a depth-first search is a maximum clique or has one of the sizes that
were iterated over (C18).  Missing, because false: two iterators asked in turn (`C24_refuted`) and
searches with a time limit (`C22_refuted_timed`). -/
theorem C24_nested_partial (h : Usable pg n S) {ops : List Op} (hl : ∀ op ∈ ops, op.Legal)
    (he : ∀ op ∈ ops, op.Exact S n) (k : Nat) {xs : List Act}
    (hx : ∀ op, Act.call op ∈ xs → op.Legal ∧ op.Exact S n ∧ op.Untimed) :
    ∃ (pg1 : PyGraph) (E : Enum) (pg2 : PyGraph) (E2 : Enum) (seen : List Seen)
      (cs : List (List Nat)), runs ops pg = .ok pg1 ∧ pg1.allCliques k = .ok E ∧
      acts xs pg1 E = .ok (pg2, E2, seen) ∧
      -- the held iterator
      Seen.answers seen = (cs.map some ++ List.replicate (xs.countP Act.isNext) none).take
        (xs.countP Act.isNext) ∧
      cs.Nodup ∧
      (∀ l, l ∈ cs ↔ (k ≠ 0 ∧ IsCliqueList S n l ∧ l.length = k ∧ (2 ≤ k → ¬ First S n 1 l))) ∧
      -- the complete iterations
      (∀ j ds, Seen.list j ds ∈ seen → ds.Nodup ∧ ∀ l, l ∈ ds ↔
        (j ≠ 0 ∧ IsCliqueList S n l ∧ l.length = j ∧ (2 ≤ j → ¬ First S n 1 l))) ∧
      -- the searches
      ((∀ op ∈ ops, op.Unbounded) → (∀ op, Act.call op ∈ xs → op.Unbounded) →
        ∀ a r, Seen.found a r ∈ seen → ∃ l, r = .ret l ∧ IsCliqueList S n l ∧
          (a.useDfs = true → IsMaxCliqueList S n l ∨ l.length = k ∨ Op.list l.length ∈ ops ∨
            Act.call (.list l.length) ∈ xs)) := by
  obtain ⟨G, hF⟩ := h.fresh
  obtain ⟨pg1, G1, a1, a2, _, _, _, a6⟩ := runs_spec ops hF.pyok hl
  obtain ⟨a7, a8⟩ := a6 he hF.mcs hF.lim
  let Q : Nat → Prop := fun j => j = k ∨ Op.list j ∈ ops ∨ Act.call (.list j) ∈ xs
  let Sd : Prop := (∀ op ∈ ops, op.Unbounded) ∧ ∀ op, Act.call op ∈ xs → op.Unbounded
  have hon : Sd → G1.curLoc ≠ 0 ∧ HonestBut Q G1 := by
    intro s
    obtain ⟨pg', G', b1, b2, b3, b4⟩ := runs_honestBut (Q := Q) ops hF.pyok
      (Or.inl (by rw [hF.cm]; exact Nat.zero_le _)) hF.loc hl s.1 (fun j hj => Or.inr (Or.inl hj))
    rw [a1] at b1
    injection b1 with b1
    subst b1
    have : G1 = G' := by
      have := a2.g
      rw [b2.g] at this
      injection this with this
      exact this.symm
    subst this
    exact ⟨b4, b3⟩
  obtain ⟨T, b1, b2, b3⟩ := Held.new a2 a7 a8 hon k
  obtain ⟨pg2, E2, ss, cs, c1, c2, c3, c4, c5⟩ := acts_spec (Or.inl rfl : Q k) xs b2
    (fun op ho => ⟨(hx op ho).1, (hx op ho).2.1, (hx op ho).2.2, fun s => s.2 op ho⟩)
    (fun j hj => Or.inr (Or.inr hj))
  have hw : ∀ j l, Wanted S n j l ↔
      (j ≠ 0 ∧ IsCliqueList S n l ∧ l.length = j ∧ (2 ≤ j → ¬ First S n 1 l)) := by
    intro j l
    unfold Wanted
    tauto
  refine ⟨pg1, Enum.new k, pg2, E2, ss, cs, a1, b1, c1, c4, c2, fun l => ?_, fun j ds hs => ?_,
    fun s1 s2 a r hs => ?_⟩
  · rw [c3, b3, hw]
  · obtain ⟨d1, d2⟩ := c5 _ hs
    exact ⟨d1, fun l => by rw [d2, hw]⟩
  · exact c5 _ hs ⟨s1, s2⟩

/-- The hypotheses of `C24_nested_partial` are met, and this is what is seen: pairs of the
diamond, its triangles in between, and a search. -/
example : (acts [.next, .call (.list 3), .next, .call (.search byDegree {}), .next, .next, .next]
      Sample.diamond (Enum.new 2) >>= fun x => .ok (Seen.answers x.2.2)) =
    .ok [some [1, 3], some [2, 3], some [1, 4], some [2, 4], none] := by decide +kernel

example : ∃ pg1 E pg2 E2 seen, runs [] Sample.diamond = .ok pg1 ∧ pg1.allCliques 2 = .ok E ∧
    acts [.next, .call (.list 3), .next, .call (.search byDegree {}), .next] pg1 E =
      .ok (pg2, E2, seen) := by
  obtain ⟨pg1, E, pg2, E2, seen, _, h1, h2, h3, _⟩ := C24_nested_partial Sample.diamond_usable
    (ops := []) (by simp) (by simp) 2
    (xs := [.next, .call (.list 3), .next, .call (.search byDegree {}), .next])
    (by
      intro op hop
      simp only [List.mem_cons, Act.call.injEq, reduceCtorEq, List.not_mem_nil, or_false,
        false_or] at hop
      rcases hop with rfl | rfl
      · exact ⟨trivial, trivial, trivial⟩
      · exact ⟨byDegree_perm, ⟨Or.inl rfl, fun l hl => Nat.le_trans hl.length_le (by decide)⟩, rfl⟩)
  exact ⟨pg1, E, pg2, E2, seen, h1, h2, h3⟩

/-- Two iterators asked for `m` results each, in turn. -/
def alternate : Nat → PyGraph → Enum → Enum →
    M (List (Option (List Nat)) × List (Option (List Nat)))
  | 0, _, _, _ => .ok ([], [])
  | m + 1, pg, E1, E2 => do
    let (pg, E1, a) ← pg.nextClique E1
    let (pg, E2, b) ← pg.nextClique E2
    let (as, bs) ← alternate m pg E1 E2
    .ok (a :: as, b :: bs)

/-- **C24** fails: alone, the iterator over pairs of the diamond yields four of its edges;
asked in turn with an iterator over triangles, it loses `[2, 4]`. -/
theorem C24_refuted : Usable Sample.diamond 4 (ofPairs Sample.diamondRows) ∧
    (PyGraph.nexts 5 Sample.diamond (Enum.new 2) >>= fun x => .ok x.2.2) =
      .ok [some [1, 3], some [2, 3], some [1, 4], some [2, 4], none] ∧
    (alternate 5 Sample.diamond (Enum.new 2) (Enum.new 3) >>= fun x => .ok x.1) =
      .ok [some [1, 3], some [2, 3], some [1, 4], none, none] :=
  ⟨Sample.diamond_usable, by decide +kernel, by decide +kernel⟩

end CM
