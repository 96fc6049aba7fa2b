import Verif.Lemmas.NWHeapAny
import Verif.Props.WeightedObject
import Verif.Props.Heap

/-!
# C105: when memory runs out in the middle of a weighted search

`getMaxCliqueA` (`Model/NWHeap`) is `get_max_clique` of a weighted graph with a heap that may refuse
any request; the answer is then `noMemory`, i.e. `MemoryError`.
-/

namespace CM

open Spec Graph NWG

set_option linter.unusedSectionVars false

section

variable {R : Type} [Zero R] [Add R] [Sub R] [NatCast R] [LT R] [LE R] [DecidableLT R]
  [DecidableLE R] {pg : PyNW R} {n : Nat} {S : SimpleGraph Nat} {ω : Nat → R} {grow : Nat → Nat}

/-- **C105**, answers: on every weighted object and after any history, a search either is as it would
be with all the memory in the world, or raises `MemoryError`, and that only if a request was
refused.  After a `MemoryError`, either only the list that is returned is missing, or `search_done` is
what it was.  Weights are of any number type. -/
theorem C105_answer (h : WUsable pg n S ω) {ops : List (WOp R)} (hl : ∀ op ∈ ops, op.Legal)
    {srt : List (WData R) → List (WData R)} (hsrt : ∀ l, (srt l).Perm l) (junk : Nat → R)
    (a : PyNW.Args R) (hp : Heap) :
    ∃ pg1 pg2 r, wruns ops pg = .ok pg1 ∧ pg1.getMaxClique srt junk a = .ok (pg2, r) ∧
      (pg1.getMaxCliqueA grow srt junk hp a = .ok (pg2, .of r) ∨
        (hp ≠ none ∧ ∃ pg3, pg1.getMaxCliqueA grow srt junk hp a = .ok (pg3, .noMemory) ∧
          (pg3 = pg2 ∨ pg3.finishedAll = pg1.finishedAll ∧ pg3.currentVertex = 0))) := by
  obtain ⟨H, hF⟩ := AW.wusable_fresh h
  obtain ⟨pg1, H1, a1, a2, _⟩ := AW.wruns_spec ops hF.pyok hl
  obtain ⟨pg2, H2, b1, _⟩ := AW.wsearch_spec a2 hsrt junk a
  exact ⟨pg1, pg2, _, a1, b1, getMaxCliqueA_either (P := hp = none) id b1⟩

/-- **C105**, one search.  The full property: whenever a request for memory is refused, the object is
left as if the call had done less.  Proved for graphs in which every vertex has at most two more
neighbours after it in the order by weight than some vertex has in the order by degree (`Roomy`), after
any history of calls that may themselves have run out of memory: the search either is as it
would be with all the memory in the world, or it raises `MemoryError`, only if a request was refused,
and the object, but for `search_done`, is as after the same search, that search without its exact
part, or one that does nothing but set the bounds.  Missing, because false (`C105_refuted`): other
graphs. -/
theorem C105_search_partial (h : WUsable pg n S ω) (hR : Roomy S n ω)
    {steps : List (WOp R × Heap)} (hs : ∀ s ∈ steps, s.1.Legal)
    {srt : List (WData R) → List (WData R)} (hsrt : ∀ l, (srt l).Perm l) (junk : Nat → R)
    (a : PyNW.Args R) (hp : Heap) :
    ∃ pg1, wrunsA grow steps pg = .ok pg1 ∧
      ((∃ pg2 r, pg1.getMaxClique srt junk a = .ok (pg2, r) ∧
        pg1.getMaxCliqueA grow srt junk hp a = .ok (pg2, .of r)) ∨
      (hp ≠ none ∧ ∃ a' pg2 pg3 r, a'.Less a ∧
        pg1.getMaxCliqueA grow srt junk hp a = .ok (pg2, .noMemory) ∧
        pg1.getMaxClique srt junk a' = .ok (pg3, r) ∧ WSameBut pg2 pg3)) := by
  obtain ⟨H, h1, h2, h3⟩ := AW.usable_calm h hR
  obtain ⟨pg1, ops, pg', H', a1, _, _, a4, a5, a6, a7⟩ :=
    AW.wrunsA_spec (grow := grow) steps (WSameBut.refl pg) h1 h2 h3 hs
  exact ⟨pg1, a1, AW.wgetMaxCliqueA_spec (a4.pyok a5) a6 a7 hsrt junk a hp⟩

/-- **C105**, histories, for the same graphs: a history of calls any of which may run out of memory
leaves the object, but for `search_done`, as a history in which none does and each search is asked
for the same or for less. -/
theorem C105_history_partial (h : WUsable pg n S ω) (hR : Roomy S n ω)
    {steps : List (WOp R × Heap)} (hs : ∀ s ∈ steps, s.1.Legal) :
    ∃ pg1 ops pg2, wrunsA grow steps pg = .ok pg1 ∧
      List.Forall₂ WOp.Less ops (steps.map Prod.fst) ∧ wruns ops pg = .ok pg2 ∧
      WSameBut pg1 pg2 := by
  obtain ⟨H, h1, h2, h3⟩ := AW.usable_calm h hR
  obtain ⟨pg1, ops, pg', H', a1, a2, a3, a4, _⟩ :=
    AW.wrunsA_spec (grow := grow) steps (WSameBut.refl pg) h1 h2 h3 hs
  exact ⟨pg1, ops, pg', a1, a2, a3, a4⟩

end

/-- **C105**, afterwards, for the same graphs and exact nonnegative weights: after any such history
with sufficient upper bounds, `reset_search` and an exact search with enough memory give a clique at
least as heavy as every clique but isolated vertices. -/
theorem C105_after_partial {pg : PyNW Rat} {n : Nat} {S : SimpleGraph Nat} {ω : Nat → Rat}
    {grow : Nat → Nat} (h : WUsable pg n S ω) (hR : Roomy S n ω)
    (hnn : ∀ v, 1 ≤ v → v ≤ n → 0 ≤ ω v) {steps : List (WOp Rat × Heap)}
    (hs : ∀ s ∈ steps, s.1.Legal ∧ s.1.Exact S n ω)
    {srt : List (WData Rat) → List (WData Rat)} (hsrt : ∀ l, (srt l).Perm l) (junk : Nat → Rat)
    {a : PyNW.Args Rat} (hd : a.useDfs = true) (ha : 0 ≤ a.lowerBound)
    (hu : ∀ l, IsCliqueList S n l → weight ω l ≤ a.upperBound)
    (hex : ∃ l, IsCliqueList S n l ∧ 2 ≤ l.length ∧ a.lowerBound < weight ω l) :
    ∃ pg1 pg2 pg3 l, wrunsA grow steps pg = .ok pg1 ∧ pg1.resetSearch = .ok pg2 ∧
      pg2.getMaxCliqueA grow srt junk none a = .ok (pg3, .ret l) ∧ IsCliqueList S n l ∧
      ∀ l', IsCliqueList S n l' → (∀ v, l' = [v] → ∃ u, S.Adj v u) →
        weight ω l' ≤ weight ω l := by
  obtain ⟨pg1, ops, pg', a1, a2, a3, a4⟩ :=
    C105_history_partial (grow := grow) h hR (fun s m => (hs s m).1)
  have hops : ∀ op ∈ ops, op.Legal ∧ op.Exact S n ω := by
    intro op ho
    obtain ⟨i, hi, rfl⟩ := List.getElem_of_mem ho
    have hl := a2.length_eq
    have hr := a2.get hi (by rw [← hl]; exact hi)
    have hm : (steps.map Prod.fst)[i]'(by rw [← hl]; exact hi) ∈ steps.map Prod.fst :=
      List.getElem_mem _
    obtain ⟨s, m, e⟩ := List.mem_map.1 hm
    obtain ⟨b1, b2⟩ := hs s m
    rw [e] at b1 b2
    exact ⟨AW.wless_legal hr b1, AW.wless_exact hr b2⟩
  obtain ⟨q1, q2, q3, l, c1, c2, c3, c4, c5⟩ := C50_reset_partial h hnn (fun o m => (hops o m).1)
    (fun o m => (hops o m).2) hsrt junk hd ha hu hex
  rw [a3] at c1
  cases c1
  have hreset : pg1.resetSearch = pg'.resetSearch := by
    unfold WSameBut at a4
    rw [a4]
    rfl
  refine ⟨pg1, q2, q3, l, a1, by rw [hreset]; exact c2, ?_, c4, c5⟩
  rcases getMaxCliqueA_either (grow := grow) (P := True) (hp := none) (fun _ => rfl) c3 with
    e | ⟨e, _⟩
  · exact e
  · exact absurd trivial e

/-! ## Which graphs -/

/-- A vertex has no more neighbours after it than neighbours. -/
theorem wlater_le_degree {R : Type} [Zero R] [Add R] [LT R] [LE R] (S : SimpleGraph Nat) (n : Nat)
    (ω : Nat → R) (v : Nat) : wlater S n ω v ≤ degree S n v := by
  classical
  unfold wlater degree
  apply Finset.card_le_card
  intro x hx
  simp only [Finset.mem_filter] at hx ⊢
  exact ⟨hx.1, hx.2.1⟩

/-- Graphs with an edge in which no vertex has more than three neighbours are `Roomy`, whatever the
weights. -/
theorem roomy_of_degree {R : Type} [Zero R] [Add R] [LT R] [LE R] {S : SimpleGraph Nat} {n : Nat}
    (ω : Nat → R) {u w : Nat} (hu : 1 ≤ u ∧ u ≤ n) (hw : 1 ≤ w ∧ w ≤ n) (he : S.Adj u w)
    (h3 : ∀ v, 1 ≤ v → v ≤ n → degree S n v ≤ 3) : Roomy S n ω := by
  classical
  have key : ∀ {x y}, 1 ≤ y ∧ y ≤ n → S.Adj x y →
      (degree S n x < degree S n y ∨ degree S n x = degree S n y ∧ x < y) → 1 ≤ later S n x := by
    intro x y hy he h
    unfold later
    apply Finset.card_pos.2
    exact ⟨y, by simp only [Finset.mem_filter]; exact ⟨Finset.mem_Icc.2 hy, he, h⟩⟩
  have hex : ∃ x, 1 ≤ x ∧ x ≤ n ∧ 1 ≤ later S n x := by
    have hne := he.ne
    by_cases h : degree S n u < degree S n w ∨ degree S n u = degree S n w ∧ u < w
    · exact ⟨u, hu.1, hu.2, key hw he h⟩
    · exact ⟨w, hw.1, hw.2, key hu he.symm (by omega)⟩
  intro v v1 v2
  obtain ⟨x, x1, x2, x3⟩ := hex
  refine ⟨x, x1, x2, ?_⟩
  have := wlater_le_degree S n ω v
  have := h3 v v1 v2
  omega

/-- On at most four vertices no vertex has more than three neighbours. -/
theorem degree_le_three {S : SimpleGraph Nat} {n : Nat} (hn : n ≤ 4) {v : Nat} (h1 : 1 ≤ v)
    (h2 : v ≤ n) : degree S n v ≤ 3 := by
  classical
  have hsub : ((Finset.Icc 1 n).filter fun w => S.Adj v w) ⊆ (Finset.Icc 1 n).erase v := by
    intro x hx
    rw [Finset.mem_filter] at hx
    exact Finset.mem_erase.2 ⟨hx.2.ne', hx.1⟩
  have h3 := Finset.card_le_card hsub
  rw [Finset.card_erase_of_mem (Finset.mem_Icc.2 ⟨h1, h2⟩), Nat.card_Icc] at h3
  unfold degree
  refine Nat.le_trans ?_ (show n + 1 - 1 - 1 ≤ 3 by omega)
  convert h3

/-! ## Examples -/

namespace Sample

/-- The complete graph on four vertices, with weights. -/
def wfour : PyNW Rat :=
  get (PyNW.new (R := Rat)) (PyNW.fromEdgelist true 64 fourRows 4 [1, 2, 3, 4])

theorem wfour_usable : WUsable wfour 4 (ofPairs fourRows) (nth ([1, 2, 3, 4] : List Rat)) :=
  ⟨.edgelist (argLR := true) (cap := 64) (by decide) (by decide) (by decide +kernel),
    wkept (by decide +kernel), 1, 2, by decide, Or.inl (by decide)⟩

theorem wfour_roomy : Roomy (ofPairs fourRows) 4 (nth ([1, 2, 3, 4] : List Rat)) :=
  roomy_of_degree _ (u := 1) (w := 2) (by decide) (by decide) ⟨by decide, Or.inl (by decide)⟩
    (fun _ h1 h2 => degree_le_three (by decide) h1 h2)

/-- Two vertices, each adjacent to the five others. -/
def wbipartiteRows : List (Nat × Nat) :=
  [(1, 2), (1, 3), (1, 4), (1, 5), (1, 6), (2, 7), (3, 7), (4, 7), (5, 7), (6, 7)]

/-- The two are heavy. -/
def wbipartite : PyNW Rat := get (PyNW.new (R := Rat))
  (PyNW.fromEdgelist true 64 wbipartiteRows 7 [100, 10, 10, 10, 10, 10, 100])

theorem wbipartite_usable :
    WUsable wbipartite 7 (ofPairs wbipartiteRows) (nth ([100, 10, 10, 10, 10, 10, 100] : List Rat)) :=
  ⟨.edgelist (argLR := true) (cap := 64) (by decide) (by decide) (by decide +kernel),
    wkept (by decide +kernel), 1, 2, by decide, Or.inl (by decide)⟩

end Sample

open Sample

/-- A graph in the scope of `C105_search_partial`; depending on the first request that is refused a
search ends in each of the ways named there: nothing done; the heuristic done (`curMax` 10) but not
the exact search; all done but no answer; an answer. -/
example : WUsable wfour 4 (ofPairs fourRows) (nth ([1, 2, 3, 4] : List Rat)) ∧
    Roomy (ofPairs fourRows) 4 (nth ([1, 2, 3, 4] : List Rat)) ∧
    [some 0, some 1, some 2, some 3, some 4, some 5, some 6, none].map (fun hp =>
      (wfour.getMaxCliqueA doubling byW (fun _ => 7) hp {}).map fun x =>
        (x.2, x.1.finishedAll, x.1.currentVertex, x.1.G.map fun H => H.curMax)) =
      [.ok (.noMemory, false, 0, some 1), .ok (.noMemory, false, 0, some 10),
        .ok (.noMemory, false, 0, some 10), .ok (.noMemory, false, 0, some 10),
        .ok (.noMemory, true, 5, some 10),
        .ok (.noMemory, true, 5, some 10), .ok (.ret [1, 2, 3, 4], true, 5, some 10),
        .ok (.ret [1, 2, 3, 4], true, 5, some 10)] :=
  ⟨wfour_usable, wfour_roomy, by decide +kernel⟩

/-- A history in the scope of `C105_history_partial` and `C105_after_partial`. -/
example : (∀ s ∈ ([(.search byW (fun _ => 0) { upperBound := 100 }, some 1), (.list (fun _ => 0) 6, none),
      (.search byW (fun _ => 3) { useHeuristic := false }, some 2), (.reset, none)] :
        List (WOp Rat × Heap)),
      s.1.Legal ∧ s.1.Exact (ofPairs fourRows) 4 (nth ([1, 2, 3, 4] : List Rat))) ∧
    (wrunsA doubling [(.search byW (fun _ => 0) { upperBound := 100 }, some 1),
      (.list (fun _ => 0) 6, none), (.search byW (fun _ => 3) { useHeuristic := false }, some 2),
      (.reset, none)] wfour >>= fun pg => pg.getMaxCliqueA doubling byW (fun _ => 0) none {} >>=
        fun x => .ok x.2) = .ok (.ret [1, 2, 3, 4]) := by
  refine ⟨?_, by decide +kernel⟩
  have hw : ∀ l, IsCliqueList (ofPairs fourRows) 4 l →
      weight (nth ([1, 2, 3, 4] : List Rat)) l ≤ 10 := by
    intro l hl
    refine le_trans (weight_le (ω := nth ([1, 2, 3, 4] : List Rat)) (by decide +kernel) hl) ?_
    decide +kernel
  intro s hs
  simp only [List.mem_cons, List.not_mem_nil, or_false] at hs
  rcases hs with rfl | rfl | rfl | rfl
  · exact ⟨byW_perm, fun l hl => le_trans (hw l hl) (by decide +kernel)⟩
  · exact ⟨trivial, trivial⟩
  · exact ⟨byW_perm, fun l hl => le_trans (hw l hl) (by decide +kernel)⟩
  · exact ⟨trivial, trivial⟩

/-! ## What is false -/

/-- **C105** fails for other graphs: the candidates of a search are chosen by weight, but the vector
for those to remove is reserved by degree.  Here it must grow in the middle of an ordinary search;
if that is refused, the scratch space is not given back.  After nine such calls an ordinary search
with enough memory runs out of the object's memory. -/
theorem C105_refuted :
    WUsable wbipartite 7 (ofPairs wbipartiteRows)
      (nth ([100, 10, 10, 10, 10, 10, 100] : List Rat)) ∧
    (∃ pg pg', wrunsA doubling (List.replicate 8 (.search byW (fun _ => 0) {}, some 4)) wbipartite =
        .ok pg ∧
      pg.getMaxCliqueA doubling byW (fun _ => 0) (some 4) {} = .ok (pg', .noMemory) ∧
      pg'.getMaxCliqueA doubling byW (fun _ => 0) none {} = .error .ub) ∧
    (wbipartite.getMaxCliqueA doubling byW (fun _ => 0) none {}).map (fun x => x.2) =
      .ok (.ret [1, 2]) := by
  refine ⟨wbipartite_usable, ?_, by decide +kernel⟩
  let x := get (PyNW.new (R := Rat))
    (wrunsA doubling (List.replicate 8 (.search byW (fun _ => 0) {}, some 4)) wbipartite)
  let y := get (PyNW.new (R := Rat), .raise) (x.getMaxCliqueA doubling byW (fun _ => 0) (some 4) {})
  refine ⟨x, y.1, ?_⟩
  decide +kernel

end CM
