import Verif.Lemmas.NWHeapEnum
import Verif.Lemmas.NWHeapEnumAny
import Verif.Lemmas.NWHeapSound
import Verif.Lemmas.NWRat
import Verif.Lemmas.NWNext
import Verif.Props.NWHeap

/-!
# C106: when memory runs out in a weighted iterator

`nextsA` (`Model/NWHeapEnum`) are calls of `__next__` on one iterator `all_cliques(W)`, each with a heap
that may refuse any request; the answer is then `noMemory`, i.e. `MemoryError`.
-/

namespace CM

open Spec Graph NWG Sample

section

variable {R : Type} [Zero R] [Add R] [Sub R] [NatCast R] [LT R] [LE R] [DecidableLT R]
  [DecidableLE R] {pg : PyNW R} {n : Nat} {S : SimpleGraph Nat} {ω : Nat → R} {grow : Nat → Nat}

/-- **C106**, answers: on every weighted object and after any history, the answers of
`all_cliques(W)` up to the first `MemoryError` are the first cliques of the complete listing `cs`,
then `StopIteration` (`none`); and only a call to which a request was refused raises `MemoryError`.
Weights are of any number type. -/
theorem C106_next (h : WUsable pg n S ω) {ops : List (WOp R)} (hl : ∀ op ∈ ops, op.Legal)
    (junk : Nat → R) (W : R) (heaps : List Heap) :
    ∃ pg1 pg2 E cs all, wruns ops pg = .ok pg1 ∧ pg1.allCliques junk W = .ok E ∧
      pg1.listCliques junk W = .ok (pg2, cs) ∧
      all = (cs.map some ++ List.replicate heaps.length none).take heaps.length ∧
      ((∃ pg3 E' q, pg1.nextsA grow heaps E (⟨0, 0, none⟩, 0) = .ok (pg3, E', q, all.map .ret)) ∨
      ∃ pre hp post pg3 E' q, heaps = pre ++ hp :: post ∧ hp ≠ none ∧
        pg1.nextsA grow (pre ++ [hp]) E (⟨0, 0, none⟩, 0) =
          .ok (pg3, E', q, (all.take pre.length).map .ret ++ [.noMemory])) := by
  obtain ⟨H, hF⟩ := AW.wusable_fresh h
  obtain ⟨pg1, H1, a1, a2, _⟩ := AW.wruns_spec ops hF.pyok hl
  obtain ⟨fuel, E, H2, E2, cs, b1, b2, b4, b5, b3, _⟩ := AW.wlistCliques_spec a2 junk W
  obtain ⟨pg3, E3, e1⟩ := wnexts_of_consume fuel b2
    (wnext_end (pg := { pg1 with G := some H2 }) rfl b5 b4) heaps.length
  refine ⟨pg1, _, E, cs, _, a1, b1, b3, rfl, ?_⟩
  rcases nextsA_either (grow := grow) heaps (⟨0, 0, none⟩, 0) e1 with
    ⟨q, c1⟩ | ⟨pre, hp, post, pg4, E4, q, c1, c2, c3⟩
  · exact Or.inl ⟨_, _, q, c1⟩
  · exact Or.inr ⟨pre, hp, post, pg4, E4, q, c1, c2, c3⟩

/-- **C106**, iteration.  The full property: a `__next__` that raises `MemoryError` gives nothing away,
and the next one goes on where it would have.  Proved for graphs in which every vertex has at most
two more neighbours after it in the order by weight than some vertex has in the order by degree
(`Roomy`), after any history of calls that may themselves have run out of memory: whatever the
heap grants to each call, the answers are those of an iterator with enough memory, except that a
call that raises `MemoryError` gives nothing or loses one clique; only a call to which a request
was refused raises it.  Missing, because false (`C106_refuted_lost`, `C106_refuted_many`): that
nothing is lost, and other graphs. -/
theorem C106_iteration_partial (h : WUsable pg n S ω) (hR : Roomy S n ω)
    {steps : List (WOp R × Heap)} (hs : ∀ s ∈ steps, s.1.Legal) (junk : Nat → R) (W : R)
    (heaps : List Heap) :
    ∃ pg1 pg2 pg3 E E' q as m cs, wrunsA grow steps pg = .ok pg1 ∧
      pg1.allCliques junk W = .ok E ∧
      pg1.nextsA grow heaps E (⟨0, 0, none⟩, 0) = .ok (pg2, E', q, as) ∧
      pg1.listCliques junk W = .ok (pg3, cs) ∧
      Merge as ((cs.map some ++ List.replicate m none).take m) ∧
      List.Forall₂ (fun h a => h = none → a ≠ .noMemory) heaps as ∧
      ∀ l ∈ cs, IsCliqueList S n l ∧ 2 ≤ l.length := by
  obtain ⟨H, h1, h2, h3⟩ := AW.usable_calm h hR
  obtain ⟨pg1, ops, pg', H1, a1, _, _, a4, a5, a6, a7⟩ :=
    AW.wrunsA_spec (grow := grow) steps (WSameBut.refl pg) h1 h2 h3 hs
  have a2 := a4.pyok a5
  have hnv := a2.of.nv
  obtain ⟨fuel, E, H2, E2, cs, b1, b2, b4, b5, b3, _, _, b6, _⟩ := AW.wlistCliques_spec a2 junk W
  have hE : E = WEnum.new ((List.range H1.g.maxDeg).map junk) W := by
    unfold PyNW.allCliques at b1
    rw [a2.loaded] at b1
    cases b1
    rfl
  obtain ⟨pg2, E', q, as, m, cs', d1, d2, d3, d4⟩ := AW.nextsA_spec (grow := grow) a6 a7 heaps
    (E := WEnum.new ((List.range H1.g.maxDeg).map junk) W) (⟨0, 0, none⟩, 0) a2.g
    (by rw [hnv, a2.nv])
    (AW.WEInv.new a2.ok.at (by have := a2.pos; omega) ((List.range H1.g.maxDeg).map junk) (by simp) W)
  rw [← hE] at d1 d2
  obtain ⟨p, E'', e1⟩ := wnexts_of_consume fuel b2
    (wnext_end (pg := { pg1 with G := some H2 }) rfl b5 b4) m
  rw [d2] at e1
  injection e1 with e1
  rw [Prod.mk.injEq, Prod.mk.injEq] at e1
  obtain ⟨_, _, rfl⟩ := e1
  exact ⟨pg1, pg2, _, E, E', q, as, m, cs, a1, b1, d1, b3, d3, d4, b6⟩

end

/-- **C106**, soundness: on every weighted object and after any history, whatever the heap grants to
each call, the cliques that an iterator gives are different cliques of the graph of weight `W` or
more, and only a call to which a request was refused raises `MemoryError`.  If no weight is
negative, they are among those that an iterator with enough memory gives. -/
theorem C106_sound {pg : PyNW Rat} {n : Nat} {S : SimpleGraph Nat} {ω : Nat → Rat}
    {grow : Nat → Nat} (h : WUsable pg n S ω) {ops : List (WOp Rat)} (hl : ∀ op ∈ ops, op.Legal)
    (junk : Nat → Rat) (W : Rat) (heaps : List Heap) :
    ∃ pg1 pg2 E E' q as, wruns ops pg = .ok pg1 ∧ pg1.allCliques junk W = .ok E ∧
      pg1.nextsA grow heaps E (⟨0, 0, none⟩, 0) = .ok (pg2, E', q, as) ∧ (given as).Nodup ∧
      (∀ l ∈ given as, IsCliqueList S n l ∧ 2 ≤ l.length ∧ W ≤ weight ω l) ∧
      List.Forall₂ (fun h a => a = .noMemory → h ≠ none) heaps as ∧
      ((∀ v, 1 ≤ v → v ≤ n → 0 ≤ ω v) → ∃ pg3 cs, pg1.listCliques junk W = .ok (pg3, cs) ∧
        ∀ l ∈ given as, l ∈ cs) := by
  obtain ⟨H, h1, h2⟩ := AW.usable_lim h
  obtain ⟨pg1, H1, a1, a2, a3, _⟩ := CM.wruns_spec ops h1 hl
  obtain ⟨pg2, E, E', q, as, b1, b2, b3, b4, b5, b6⟩ := nextsA_sound (grow := grow) (xe_rat H1) a2
    (AW.lim_wframe h2 a3) junk W heaps (⟨0, 0, none⟩, 0)
  refine ⟨pg1, pg2, E, E', q, as, a1, b1, b2, b3, b4, b5, fun hnn => ?_⟩
  obtain ⟨pg3, cs, c1, c2, _⟩ := b6 (EX.pyok_nonneg a2 hnn)
  exact ⟨pg3, cs, c1, c2⟩

/-- **C106**, what is lost: on every weighted object without negative weights and after any history,
when an iterator comes to its end, the cliques that it should have given and did not give are as
follows.  To every `MemoryError` belong two vertices, and every clique that is missing contains the
two vertices of some `MemoryError`. -/
theorem C106_loss {pg : PyNW Rat} {n : Nat} {S : SimpleGraph Nat} {ω : Nat → Rat}
    {grow : Nat → Nat} (h : WUsable pg n S ω) (hnn : ∀ v, 1 ≤ v → v ≤ n → 0 ≤ ω v)
    {ops : List (WOp Rat)} (hl : ∀ op ∈ ops, op.Legal)
    (junk : Nat → Rat) (W : Rat) (heaps : List Heap) :
    ∃ pg1 pg2 pg3 E E' q as cs, wruns ops pg = .ok pg1 ∧ pg1.allCliques junk W = .ok E ∧
      pg1.nextsA grow heaps E (⟨0, 0, none⟩, 0) = .ok (pg2, E', q, as) ∧
      pg1.listCliques junk W = .ok (pg3, cs) ∧
      (.ret none ∈ as → ∃ es : List (Nat × Nat), es.length ≤ as.count .noMemory ∧
        (∀ e ∈ es, e.1 ≠ e.2) ∧ ∀ l ∈ cs, l ∈ given as ∨ ∃ e ∈ es, e.1 ∈ l ∧ e.2 ∈ l) := by
  obtain ⟨H, h1, h2⟩ := AW.usable_lim h
  obtain ⟨pg1, H1, a1, a2, a3, _⟩ := CM.wruns_spec ops h1 hl
  obtain ⟨pg2, E, E', q, as, b1, b2, _, _, _, b6⟩ := nextsA_sound (grow := grow) (xe_rat H1) a2
    (AW.lim_wframe h2 a3) junk W heaps (⟨0, 0, none⟩, 0)
  obtain ⟨pg3, cs, c1, _, c2⟩ := b6 (EX.pyok_nonneg a2 hnn)
  exact ⟨pg1, pg2, pg3, E, E', q, as, cs, a1, b1, b2, c1, c2⟩

/-! ## Examples -/

namespace Sample

/-- Two vertices, each adjacent to the eight others, and two edges more. -/
def wlostRows : List (Nat × Nat) :=
  [(1, 2), (1, 3), (1, 4), (1, 5), (1, 6), (1, 7), (1, 8), (1, 9), (2, 3), (2, 4),
    (2, 10), (3, 10), (4, 10), (5, 10), (6, 10), (7, 10), (8, 10), (9, 10)]

/-- The two are heavy. -/
def wlost : PyNW Rat := get (PyNW.new (R := Rat))
  (PyNW.fromEdgelist true 64 wlostRows 10 [100, 10, 10, 10, 10, 10, 10, 10, 10, 100])

theorem wlost_usable : WUsable wlost 10 (ofPairs wlostRows)
    (nth ([100, 10, 10, 10, 10, 10, 10, 10, 10, 100] : List Rat)) :=
  ⟨.edgelist (argLR := true) (cap := 64) (by decide) (by decide) (by decide +kernel),
    wkept (by decide +kernel), 1, 2, by decide, Or.inl (by decide)⟩

/-- The answers to calls of `__next__` on one iterator. -/
def wanswers (pg : PyNW Rat) (W : Rat) (heaps : List Heap) :
    M (List (HeapRes (Option (List Nat)))) :=
  pg.allCliques (fun _ => 7) W >>= fun E =>
    (pg.nextsA doubling heaps E (⟨0, 0, none⟩, 0)).map fun x => x.2.2.2

end Sample

/-- An iterator in the scope of `C106_iteration_partial`, on an object whose search ran out of memory.
The second call gets too little memory for its vectors and nothing is lost; the fourth too little
for its answer, and `[2, 4]` is lost. -/
example : WUsable wfour 4 (ofPairs fourRows) (nth ([1, 2, 3, 4] : List Rat)) ∧
    Roomy (ofPairs fourRows) 4 (nth ([1, 2, 3, 4] : List Rat)) ∧
    (wrunsA doubling [(.search byW (fun _ => 0) {}, some 1)] wfour >>= fun pg =>
        wanswers pg 6 [some 1, some 1, none, some 1, none, none]) =
      .ok [.noMemory, .noMemory, .ret (some [2, 3, 4]), .noMemory, .ret (some [3, 4]), .ret none] :=
  ⟨wfour_usable, wfour_roomy, by decide +kernel⟩

/-- A graph in the scope of `C106_next` but not of `C106_iteration_partial`: the second call runs out of
memory. -/
example : WUsable wbipartite 7 (ofPairs wbipartiteRows)
      (nth ([100, 10, 10, 10, 10, 10, 100] : List Rat)) ∧
    wanswers wbipartite 100 [none, some 1] = .ok [.ret (some [2, 7]), .noMemory] :=
  ⟨wbipartite_usable, by decide +kernel⟩

/-- An iterator in the scope of `C106_sound`, on the same kind of graph: the first call is refused a
request in the middle, the second returns a clique. -/
example : WUsable wlost 10 (ofPairs wlostRows)
      (nth ([100, 10, 10, 10, 10, 10, 10, 10, 10, 100] : List Rat)) ∧
    wanswers wlost 110 [some 3, none, none] = .ok [.noMemory, .ret (some [3, 10]), .ret (some [4, 10])] :=
  ⟨wlost_usable, by decide +kernel⟩

/-- An iterator in the scope of `C106_loss`: it comes to its end after one `MemoryError`, and what is
missing contains the vertices 2 and 10. -/
example : WUsable wlost 10 (ofPairs wlostRows)
      (nth ([100, 10, 10, 10, 10, 10, 10, 10, 10, 100] : List Rat)) ∧
    (∀ v, 1 ≤ v → v ≤ 10 →
      (0 : Rat) ≤ nth ([100, 10, 10, 10, 10, 10, 10, 10, 10, 100] : List Rat) v) ∧
    wanswers wlost 115 [some 3, none] = .ok [.noMemory, .ret none] ∧
    (wlost.listCliques (fun _ => 7) 115).map (fun x => x.2) = .ok [[2, 3, 10], [2, 4, 10]] :=
  ⟨wlost_usable, by
    intro v h1 h2
    interval_cases v <;> decide +kernel, by decide +kernel, by decide +kernel⟩

/-! ## What is false -/

/-- **C106** fails, although the graph is `Roomy`: memory runs out after a clique was found, and the
iterator goes on with the next one. -/
theorem C106_refuted_lost : WUsable wfour 4 (ofPairs fourRows) (nth ([1, 2, 3, 4] : List Rat)) ∧
    wanswers wfour 6 [none, none, none, none] =
      .ok [.ret (some [2, 3, 4]), .ret (some [2, 4]), .ret (some [3, 4]), .ret none] ∧
    wanswers wfour 6 [some 3, none, none, none] =
      .ok [.noMemory, .ret (some [2, 4]), .ret (some [3, 4]), .ret none] :=
  ⟨wfour_usable, by decide +kernel, by decide +kernel⟩

/-- **C106** fails worse for other graphs: the vector of candidates to remove must grow in the middle
of a call, and if that is refused, everything with the candidate in hand is lost.  Here one
`MemoryError` loses every clique. -/
theorem C106_refuted_many : WUsable wlost 10 (ofPairs wlostRows)
      (nth ([100, 10, 10, 10, 10, 10, 10, 10, 10, 100] : List Rat)) ∧
    wanswers wlost 115 [none, none, none] =
      .ok [.ret (some [2, 3, 10]), .ret (some [2, 4, 10]), .ret none] ∧
    wanswers wlost 115 [some 3, none] = .ok [.noMemory, .ret none] :=
  ⟨wlost_usable, by decide +kernel, by decide +kernel⟩

end CM
