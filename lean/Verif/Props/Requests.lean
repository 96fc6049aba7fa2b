import Verif.Lemmas.NWRequests
import Verif.Props.Heap
import Verif.Props.NWHeap

/-!
# C109: how often memory is requested

docs/source/how.rst: "`cliquematch` does exactly *one* heap allocation … at the start of every search
method, be it the heuristic search, finding one clique or enumerating cliques. During the clique search,
it performs *zero* memory allocations. After a clique is found, it requests memory to return the clique
to the user."

A search that is granted `k` requests for memory is `getMaxCliqueA … (some k)` (`Model/Heap`).
-/

namespace CM

open Spec Graph NWG Sample

section

variable {grow : Nat → Nat} {pg : PyGraph} {n : Nat} {S : SimpleGraph Nat}

/-- **C109**, searches.  The full property: the number of requests does not depend on the graph; one
for the heuristic, one for the exact search, those for the answer.  Proved, for objects and calls
with an `upper_bound` larger than the number of neighbours of any vertex, after any history of such
calls: a search makes exactly `requests` requests, i.e. one for the heuristic, two for the exact
search without time limit, none for one with a time limit, and two for the answer; with this many it
is as it would be with all the memory in the world, with fewer it raises `MemoryError`.  Missing,
because false (`C109_refuted`, `C109_refuted_bound`): that the exact search makes one request, and
smaller values of `upper_bound`. -/
theorem C109_search_partial (h : Usable pg n S) {ops : List Op}
    (hs : ∀ op ∈ ops, op.Legal ∧ op.Wide S) {srt : List VData → List VData}
    (hsrt : ∀ l, (srt l).Perm l) {a : PyGraph.Args} (ha : Wide S a.upperBound) :
    ∃ pg1 pg2 r, runs ops pg = .ok pg1 ∧ pg1.getMaxClique srt a = .ok (pg2, r) ∧
      (∀ k, pg1.requests a ≤ k → pg1.getMaxCliqueA grow srt (some k) a = .ok (pg2, .of r)) ∧
      ∀ k, k < pg1.requests a →
        ∃ pg3, pg1.getMaxCliqueA grow srt (some k) a = .ok (pg3, .noMemory) := by
  obtain ⟨G, hF⟩ := h.fresh
  obtain ⟨pg1, G1, a1, a2, a3⟩ := runs_lim ops hF.pyok hF.bounds.le hs
  have hm := a2.ok.wf.maxDeg_ne (by rw [a2.of.nv]; omega)
  have hc := fun k => getMaxCliqueA_count (grow := grow) a2 a3 hm hsrt ha k
  obtain ⟨pg2, r, b1, _⟩ := (hc (pg1.requests a)).2 (Nat.le_refl _)
  refine ⟨pg1, pg2, r, a1, b1, fun k hk => ?_, fun k => (hc k).1⟩
  obtain ⟨pg2', r', c1, c2⟩ := (hc k).2 hk
  rw [b1] at c1
  cases c1
  exact c2

/-- **C109**, iterators.  The full property: one request at the start, none during the search, those for
each clique.  Proved, for cliques of at least two vertices and histories as in
`C109_search_partial`: if the first `__next__` is granted at least four requests and each later one at
least two, the answers are those of an iterator with all the memory in the world; a first `__next__`
with fewer raises `MemoryError`, if there is a clique. -/
theorem C109_iterator_partial (h : Usable pg n S) {ops : List Op}
    (hs : ∀ op ∈ ops, op.Legal ∧ op.Wide S) {k : Nat} (hk : 2 ≤ k) (j : Nat) (js : List Nat) :
    ∃ pg1 pg2 pg3 E E' q cs, runs ops pg = .ok pg1 ∧ pg1.allCliques k = .ok E ∧
      pg1.listCliques k = .ok (pg2, cs) ∧
      pg1.nextsA grow (some (j + 4) :: js.map fun j => some (j + 2)) E ⟨0, 0, none⟩ =
        .ok (pg3, E', q,
          ((cs.map some ++ List.replicate (js.length + 1) none).take (js.length + 1)).map .ret) ∧
      (cs ≠ [] → ∀ i < 4, ∃ pg4 E4 q4,
        pg1.nextsA grow [some i] E ⟨0, 0, none⟩ = .ok (pg4, E4, q4, [.noMemory])) := by
  obtain ⟨G, hF⟩ := h.fresh
  obtain ⟨pg1, G1, a1, a2, a3⟩ := runs_lim ops hF.pyok hF.bounds.le hs
  have hnv := a2.of.nv
  have hl : 0 < G1.limit := by
    have := a3 0 (by omega)
    omega
  obtain ⟨fuel, G2, E2, cs, b1, b2, b3, b4, b5⟩ := listCliques_end a2 k
  obtain ⟨pg3, E3, e1⟩ := nexts_of_consume fuel b2
    (next_end (pg := { pg1 with G := some G2 }) rfl b5 b4) (js.length + 1)
  obtain ⟨q, c1⟩ := nextsA_new (grow := grow) (Q := fun j => j = k) rfl hk a3 hl j js a2.g
    (by rw [hnv, a2.nv]) (EInv.new a2.at.ok (by have := a2.pos; omega) k) e1
  refine ⟨pg1, _, pg3, _, E3, q, cs, a1, b1, b3, c1, fun hne i hi => ?_⟩
  obtain ⟨c, cs', rfl⟩ := List.exists_cons_of_ne_nil hne
  obtain ⟨_, _, f1⟩ := nexts_of_consume fuel b2
    (next_end (pg := { pg1 with G := some G2 }) rfl b5 b4) 1
  unfold PyGraph.nexts at f1
  obtain ⟨⟨p1, E1, x⟩, f2, f1⟩ := bind_eq_ok.1 f1
  cases f1
  obtain ⟨p, E4, q4, f3⟩ := nextCliqueA_few (grow := grow) (Q := fun j => j = k) rfl hk a2.g
    (EInv.new a2.at.ok (by have := a2.pos; omega) k) a3 hl f2 hi
  refine ⟨p, E4, q4, ?_⟩
  unfold PyGraph.nextsA
  rw [f3]
  rfl

end

section

variable {R : Type} [Zero R] [Add R] [Sub R] [NatCast R] [LT R] [LE R] [DecidableLT R]
  [DecidableLE R] {pg : PyNW R} {n : Nat} {S : SimpleGraph Nat} {ω : Nat → R} {grow : Nat → Nat}

/-- **C109** for weighted searches, in graphs in which every vertex has at most two more neighbours
after it in the order by weight than some vertex has in the order by degree (`Roomy`), after any
history: exactly one request for the heuristic, three for the exact search, two for the answer.
Missing, because false (`C109_refuted_weighted`): other graphs. -/
theorem C109_weighted_partial (h : WUsable pg n S ω) (hR : Roomy S n ω) {ops : List (WOp R)}
    (hl : ∀ op ∈ ops, op.Legal) {srt : List (WData R) → List (WData R)}
    (hsrt : ∀ l, (srt l).Perm l) (junk : Nat → R) (a : PyNW.Args R) :
    ∃ pg1 pg2 r, wruns ops pg = .ok pg1 ∧ pg1.getMaxClique srt junk a = .ok (pg2, r) ∧
      (∀ k, a.requests ≤ k → pg1.getMaxCliqueA grow srt junk (some k) a = .ok (pg2, .of r)) ∧
      ∀ k, k < a.requests →
        ∃ pg3, pg1.getMaxCliqueA grow srt junk (some k) a = .ok (pg3, .noMemory) := by
  obtain ⟨pg1, H1, a1, a2, a3, a4, a5, _⟩ := AW.wruns_calm h hR hl
  have hc := fun k => AW.wgetMaxCliqueA_count (grow := grow) a2 a3 a4 a5 hsrt junk a k
  obtain ⟨pg2, r, b1, _⟩ := (hc a.requests).2 (Nat.le_refl _)
  refine ⟨pg1, pg2, r, a1, b1, fun k hk => ?_, fun k => (hc k).1⟩
  obtain ⟨pg2', r', c1, c2⟩ := (hc k).2 hk
  rw [b1] at c1
  cases c1
  exact c2

/-- **C109** for weighted iterators, in such graphs: if the first `__next__` is granted at least five
requests and each later one at least two, the answers are those of an iterator with all the memory in
the world; a first `__next__` with fewer raises `MemoryError`, if there is a clique. -/
theorem C109_weighted_iterator_partial (h : WUsable pg n S ω) (hR : Roomy S n ω)
    {ops : List (WOp R)} (hl : ∀ op ∈ ops, op.Legal) (junk : Nat → R) (W : R) (j : Nat)
    (js : List Nat) :
    ∃ pg1 pg2 pg3 E E' q cs, wruns ops pg = .ok pg1 ∧ pg1.allCliques junk W = .ok E ∧
      pg1.listCliques junk W = .ok (pg2, cs) ∧
      pg1.nextsA grow (some (j + 5) :: js.map fun j => some (j + 2)) E (⟨0, 0, none⟩, 0) =
        .ok (pg3, E', q,
          ((cs.map some ++ List.replicate (js.length + 1) none).take (js.length + 1)).map .ret) ∧
      (cs ≠ [] → ∀ i < 5, ∃ pg4 E4 q4,
        pg1.nextsA grow [some i] E (⟨0, 0, none⟩, 0) = .ok (pg4, E4, q4, [.noMemory])) := by
  obtain ⟨pg1, H1, a1, a2, a3, a4, a5, a6⟩ := AW.wruns_calm h hR hl
  have hnv := a2.of.nv
  obtain ⟨fuel, E, H2, E2, cs, b1, b2, b4, b5, b3, _⟩ := AW.wlistCliques_spec a2 junk W
  have hE : E = WEnum.new ((List.range H1.g.maxDeg).map junk) W := by
    unfold PyNW.allCliques at b1
    rw [a2.loaded] at b1
    cases b1
    rfl
  have hW : AW.WEInv H1.g.searchStart H1 H1 E := by
    rw [hE]
    exact AW.WEInv.new a2.ok.at (by have := a2.pos; omega) ((List.range H1.g.maxDeg).map junk)
      (by simp) W
  obtain ⟨pg3, E3, e1⟩ := wnexts_of_consume fuel b2
    (wnext_end (pg := { pg1 with G := some H2 }) rfl b5 b4) (js.length + 1)
  obtain ⟨q, c1⟩ := AW.nextsA_new (grow := grow) a3 a4 a5 a6 j js a2.g (by rw [hnv, a2.nv])
    hW e1
  refine ⟨pg1, _, pg3, E, E3, q, cs, a1, b1, b3, c1, fun hne i hi => ?_⟩
  obtain ⟨c, cs', rfl⟩ := List.exists_cons_of_ne_nil hne
  obtain ⟨_, _, f1⟩ := wnexts_of_consume fuel b2
    (wnext_end (pg := { pg1 with G := some H2 }) rfl b5 b4) 1
  unfold PyNW.nexts at f1
  obtain ⟨⟨p1, E1, x⟩, f2, f1⟩ := bind_eq_ok.1 f1
  cases f1
  obtain ⟨p, E4, q4, f3⟩ := AW.nextCliqueA_few (grow := grow) a2.g hW a3 a4 a5 a6 f2 hi
  refine ⟨p, E4, q4, ?_⟩
  unfold PyNW.nextsA
  dsimp only
  rw [f3]
  rfl

end

/-! ## Examples -/

/-- The hypotheses of `C109_search_partial` and `C109_iterator_partial` are met, and these numbers of
requests are the least that do. -/
example : Usable five 5 (ofPairs fiveRows) ∧ Wide (ofPairs fiveRows) ({} : PyGraph.Args).upperBound ∧
    five.requests {} = 5 ∧
    [some 4, some 5].map (fun hp =>
      (five.getMaxCliqueA doubling byDegree hp {}).map fun x => x.2) =
      [.ok .noMemory, .ok (.ret [1, 2, 3, 4, 5])] ∧
    (five.nextsA doubling (some 4 :: List.replicate 4 (some 2)) (Enum.new 3) ⟨0, 0, none⟩).map
      (fun x => x.2.2.2) =
      .ok [.ret (some [2, 3, 4]), .ret (some [2, 3, 5]), .ret (some [2, 4, 5]),
        .ret (some [3, 4, 5]), .ret none] ∧
    (five.nextsA doubling [some 3, some 1, some 2] (Enum.new 3) ⟨0, 0, none⟩).map
      (fun x => x.2.2.2) = .ok [.noMemory, .noMemory, .ret (some [2, 4, 5])] :=
  ⟨five_usable, wide_of_rows (n := 5) (by decide) (by decide), by decide +kernel⟩

/-- The hypotheses of `C109_weighted_partial` and `C109_weighted_iterator_partial` are met. -/
example : WUsable wfour 4 (ofPairs fourRows) (nth ([1, 2, 3, 4] : List Rat)) ∧
    Roomy (ofPairs fourRows) 4 (nth ([1, 2, 3, 4] : List Rat)) ∧
    ({} : PyNW.Args Rat).requests = 6 ∧
    [some 5, some 6].map (fun hp =>
      (wfour.getMaxCliqueA doubling byW (fun _ => 7) hp {}).map fun x => x.2) =
      [.ok .noMemory, .ok (.ret [1, 2, 3, 4])] ∧
    (wfour.allCliques (fun _ => 0) 6 >>= fun E => (wfour.nextsA doubling
      (some 5 :: List.replicate 3 (some 2)) E (⟨0, 0, none⟩, 0)).map fun x => x.2.2.2) =
      .ok [.ret (some [2, 3, 4]), .ret (some [2, 4]), .ret (some [3, 4]), .ret none] :=
  ⟨wfour_usable, wfour_roomy, by decide +kernel⟩

/-! ## What is false -/

/-- **C109** is false for every graph: an exact search does not get by with one request besides the two
for the answer. -/
theorem C109_refuted {grow : Nat → Nat} {pg : PyGraph} {n : Nat} {S : SimpleGraph Nat}
    (h : Usable pg n S) (hw : Wide S 0xFFFF) {srt : List VData → List VData}
    (hsrt : ∀ l, (srt l).Perm l) :
    ∃ pg', pg.getMaxCliqueA grow srt (some 3) { useHeuristic := false } = .ok (pg', .noMemory) := by
  obtain ⟨pg1, _, _, a1, _, _, a4⟩ := C109_search_partial (grow := grow) h (ops := []) (by simp) hsrt
    (a := { useHeuristic := false }) hw
  cases a1
  exact a4 3 (by simp [PyGraph.requests])

/-- **C109** is false for small values of `upper_bound`: memory is requested during the search, and how
often depends on the graph. -/
theorem C109_refuted_bound : Usable four 4 (ofPairs fourRows) ∧ Usable six 6 (ofPairs sixRows) ∧
    [some 4, some 5].map (fun hp => (four.getMaxCliqueA doubling byDegree hp
      { upperBound := 2, useHeuristic := false }).map fun x => x.2) =
      [.ok .noMemory, .ok (.ret [1, 2, 3, 4])] ∧
    [some 5, some 6].map (fun hp => (six.getMaxCliqueA doubling byDegree hp
      { upperBound := 2, useHeuristic := false }).map fun x => x.2) =
      [.ok .noMemory, .ok (.ret [1, 2, 3, 4, 5, 6])] :=
  ⟨four_usable, six_usable, by decide +kernel⟩

/-- **C109** is false for other weighted graphs: memory is requested during an ordinary search. -/
theorem C109_refuted_weighted :
    WUsable wbipartite 7 (ofPairs wbipartiteRows)
      (nth ([100, 10, 10, 10, 10, 10, 100] : List Rat)) ∧ ({} : PyNW.Args Rat).requests = 6 ∧
    [some 6, some 7].map (fun hp =>
      (wbipartite.getMaxCliqueA doubling byW (fun _ => 0) hp {}).map fun x => x.2) =
      [.ok .noMemory, .ok (.ret [1, 2])] :=
  ⟨wbipartite_usable, by decide +kernel⟩

end CM
