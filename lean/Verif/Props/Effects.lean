import Verif.Lemmas.Effects
import Verif.Props.Correspondence

/-!
# C88, C89: distance and condition functions with state and side effects
-/

namespace CM

open Spec Sample

variable {D τ : Type} {F : Fns (PyGraph × τ) D} {Inv : PyGraph × τ → Prop} {pg : PyGraph} {t : τ}

/-- Recording the calls changes nothing: a builder with recorded functions and one with the
functions themselves return the same and leave the same world. -/
theorem C88_recording [LinearOrder D] [Inhabited D] (F : Fns (PyGraph × τ) D) (argLR : Bool)
    (cap : Nat) (srt1 srt2 : List (PairDist D) → List (PairDist D)) (M N : Nat) (w : Window D)
    (sym1 sym2 : Bool) (pg : PyGraph) (t : τ) (log : List (Call D)) :
    let same := fun (b : ∀ {τ}, Fns (PyGraph × τ) D → Eff (PyGraph × τ) Unit) =>
      ∃ pg' t' log' r, b F.noted (pg, t, log) = ((pg', t', log'), r) ∧
        b F (pg, t) = ((pg', t'), r)
    same (fun F => buildMetricE argLR cap srt1 srt2 M N w F sym1 sym2) ∧
    same (fun F => buildBothE argLR cap srt1 srt2 M N w F sym1 sym2) ∧
    same (fun F => buildConditionE argLR cap M N F) := by
  refine ⟨?_, ?_, ?_⟩
  · exact (Erases.bind (Erases.fillDists (fun _ _ => Erases.noted _ _) _ _ _) fun _ => Erases.bind
      (Erases.fillDists (fun _ _ => Erases.noted _ _) _ _ _) fun _ => Erases.bind (Erases.lift _)
      fun _ => Erases.ite (Erases.lift _) (Erases.load _ _ _ _ _)) pg t log
  · exact (Erases.bind (Erases.fillDists (fun _ _ => Erases.noted _ _) _ _ _) fun _ => Erases.bind
      (Erases.fillDists (fun _ _ => Erases.noted _ _) _ _ _) fun _ => Erases.bind
      (Erases.efrCondition (fun _ _ _ _ => Erases.noted _ _) _ _ _ _ _ _ _)
      fun _ => Erases.ite (Erases.lift _) (Erases.load _ _ _ _ _)) pg t log
  · exact (Erases.bind (Erases.forRange (fun _ _ => Erases.forRange (fun _ _ => Erases.forRange
      (fun _ _ => Erases.forRange (fun _ _ => Erases.bind (Erases.noted _ _) fun _ => Erases.ite
        (Erases.lift _) (Erases.lift _)) _ _ _) _ _ _) _ _ _) _ _ _) fun _ =>
      Erases.ite (Erases.lift _) (Erases.load _ _ _ _ _)) pg t log

/-- **C88** for `build_edges` with distances only: whatever the functions do, every pair of
elements is asked for exactly once, set 1 before set 2 and in order, and the graph is that of the
table of the answers. -/
theorem C88_metric [LinearOrder D] [Inhabited D] (hF : F.Keeps Inv) (h0 : Inv (pg, t))
    (argLR : Bool) (cap : Nat) (srt1 srt2 : List (PairDist D) → List (PairDist D)) {M N : Nat}
    (hM : M < 2 ^ 31) (hN : N < 2 ^ 31) (w : Window D) (sym1 sym2 : Bool) :
    AsTable F Inv (buildMetricE argLR cap srt1 srt2 M N w F.noted sym1 sym2 (pg, t, []))
      (fun qs => qs = ((pairs M sym1).map fun p => .d1 p.1 p.2) ++
        (pairs N sym2).map fun p => .d2 p.1 p.2)
      (fun T pg => buildMetric argLR cap pg srt1 srt2 M N w T.d1 sym1 T.d2 sym2) := by
  have hQ := distQ_nodup M N sym1 sym2
  obtain ⟨pg1, t1, log, r, h1, h2, h3⟩ := Sim.run (sim_fillBoth hF srt1 srt2 hM hN sym1 sym2)
    (fun T => ⟨_, rfl⟩) (f := fun ps => Eff.lift (edgesFromRelsets M N sym1 sym2 ps.1 ps.2 w))
    (g := fun _ ps => edgesFromRelsets M N sym1 sym2 ps.1 ps.2 w)
    (Q2 := fun _ => []) (P2 := fun _ _ _ => True)
    (fun a _ => (Sim.lift _).mono (List.Sublist.refl _) fun _ _ _ => trivial) hQ
    (fun _ _ => by rwa [List.append_nil]) h0
  refine ⟨pg1, t1, log, h1, ?_⟩
  rw [buildMetricE_eq, run_load argLR cap h2]
  rcases h3 with ⟨e, he, rfl⟩ | ⟨T, ps, qs, h3, h4, h5, h6, h7, _⟩
  · exact Or.inl ⟨e, he, rfl⟩
  · refine Or.inr ⟨T, h3, ?_, ?_⟩
    · rw [h6, List.eq_nil_of_sublist_nil h7, List.append_nil, fillQ_eq, fillQ_eq]
    · cases h4
      simp only [buildMetric, fillDists_spec hM, fillDists_spec hN, ← h5, ok_bind]

/-- **C88** for `build_edges_condition_only`: every combination of a pair of elements of set 1 and
one of set 2 is asked for exactly once, in order. -/
theorem C88_condition_only [Inhabited D] (hF : F.Keeps Inv) (h0 : Inv (pg, t)) (argLR : Bool)
    (cap M N : Nat) :
    AsTable F Inv (buildConditionE argLR cap M N F.noted (pg, t, []))
      (fun qs => qs = (pairs M true).flatMap fun p => (pairs N true).map fun q =>
        .c p.1 p.2 q.1 q.2)
      (fun T pg => buildCondition argLR cap pg M N T.c) := by
  have hc := Sim.before (f := fun x : Edges × Nat =>
      (.ok (umul M N, x.2, x.1) : Except Fault (Nat × Nat × Edges)))
    (P2 := fun l _ => l = condQ M N) (sim_condLoop hF M N) fun _ _ _ h _ => h trivial
  obtain ⟨pg1, t1, log, r, h1, h2, h3, h4⟩ := hc pg t [] h0
  refine ⟨pg1, t1, log, h1, ?_⟩
  rw [buildConditionE_eq, run_load argLR cap h2]
  rcases h4 with ⟨e, he, rfl⟩ | ⟨h4, h5⟩
  · exact Or.inl ⟨e, he, rfl⟩
  · obtain ⟨T, hT⟩ := exists_answers log ((condQ_nodup M N).sublist h3)
    have e := h4 T hT
    obtain ⟨x, hx⟩ := condLoop_total M N T.c
    refine Or.inr ⟨T, hT, ?_, ?_⟩
    · simp only [hx, ok_bind] at e
      rw [h5 _ e.symm, condQ_eq]
    · simp only [← e, hx, ok_bind, buildCondition_loop, List.nil_append]

/-- **C88** for `build_edges` with distances and a condition, as far as it is true.  The full
property: whatever the functions do, every pair of elements is asked for exactly once, and every
combination of pairs at most once, so the graph is that of the table of the answers.  Proved if
both distances are declared symmetric or both are not.  Missing, because false (`C88_refuted`):
one is declared symmetric and the other is not (for these see `C88_any_flags_partial`). -/
theorem C88_both_partial [LinearOrder D] [Inhabited D] (hF : F.Keeps Inv) (h0 : Inv (pg, t))
    (argLR : Bool) (cap : Nat) {srt1 srt2 : List (PairDist D) → List (PairDist D)}
    (hs1 : Sorts srt1) (hs2 : Sorts srt2) {M N : Nat} (hM : M < 2 ^ 31) (hN : N < 2 ^ 31)
    (w : Window D) (sym : Bool) :
    AsTable F Inv (buildBothE argLR cap srt1 srt2 M N w F.noted sym sym (pg, t, []))
      (fun qs => ∃ cs, qs = ((pairs M sym).map fun p => .d1 p.1 p.2) ++
        ((pairs N sym).map fun p => .d2 p.1 p.2) ++ cs ∧ cs.Nodup ∧
        ∀ q ∈ cs, ∃ i1 i2 j1 j2, q = .c i1 i2 j1 j2 ∧ (i1, i2) ∈ pairs M sym ∧
          ((j1, j2) ∈ pairs N sym ∨ sym = true ∧ (j2, j1) ∈ pairs N sym))
      (fun T pg => buildBoth argLR cap pg srt1 srt2 M N w T.c T.d1 sym T.d2 sym) := by
  have hQ := distQ_nodup M N sym sym
  have hQ2 : ∀ ps : List (PairDist D) × List (PairDist D), (∃ T : Answers D,
      (.ok (srt1 (pairList M sym T.d1), srt2 (pairList N sym T.d2)) : Except Fault _) = .ok ps) →
      ((fillQ .d1 M sym ++ fillQ .d2 N sym) ++
        ps.1.flatMap fun x => ps.2.flatMap (askQ sym sym x)).Nodup := by
    rintro _ ⟨T, h⟩
    cases h
    refine List.Nodup.append hQ (askQ_nodup hs1 hs2 M N sym T.d1 T.d2) ?_
    intro q h1 h2
    rw [fillQ_eq, fillQ_eq] at h1
    obtain ⟨x, _, y, _, h⟩ := mem_askQ h2
    rcases List.mem_append.1 h1 with h1 | h1 <;> obtain ⟨_, _, rfl⟩ := List.mem_map.1 h1 <;>
      rcases h with h | ⟨_, h⟩ <;> cases h
  obtain ⟨pg1, t1, log, r, h1, h2, h3⟩ := Sim.run (sim_fillBoth hF srt1 srt2 hM hN sym sym)
    (fun T => ⟨_, rfl⟩) (f := fun ps => efrConditionE M N sym sym ps.1 ps.2 w F.noted.c)
    (g := fun T ps => efrCondition M N sym sym ps.1 ps.2 w T.c)
    (Q2 := fun ps => ps.1.flatMap fun x => ps.2.flatMap (askQ sym sym x))
    (P2 := fun _ _ _ => True) (fun a _ => sim_efrCondition hF _ _ _ _ _ _ _) hQ hQ2 h0
  refine ⟨pg1, t1, log, h1, ?_⟩
  rw [buildBothE_eq, run_load argLR cap h2]
  rcases h3 with ⟨e, he, rfl⟩ | ⟨T, ps, qs, h3, h4, h5, h6, h7, _⟩
  · exact Or.inl ⟨e, he, rfl⟩
  · cases h4
    refine Or.inr ⟨T, h3, ⟨qs, ?_, ?_, ?_⟩, ?_⟩
    · rw [h6, fillQ_eq, fillQ_eq]
    · exact (askQ_nodup hs1 hs2 M N sym T.d1 T.d2).sublist h7
    · intro q hq
      obtain ⟨x, hx, y, hy, h⟩ := mem_askQ (h7.subset hq)
      obtain ⟨x1, x2, x3, x4, _⟩ := mem_pairList.1 (hs1.mem.1 hx)
      obtain ⟨y1, y2, y3, y4, _⟩ := mem_pairList.1 (hs2.mem.1 hy)
      rcases h with rfl | ⟨hs, rfl⟩
      · exact ⟨_, _, _, _, rfl, mem_pairs.2 ⟨x1, x2, x3, x4⟩,
          Or.inl (mem_pairs.2 ⟨y1, y2, y3, y4⟩)⟩
      · exact ⟨_, _, _, _, rfl, mem_pairs.2 ⟨x1, x2, x3, x4⟩,
          Or.inr ⟨hs, mem_pairs.2 ⟨y1, y2, y3, y4⟩⟩⟩
    · simp only [buildBoth, fillDists_spec hM, fillDists_spec hN, ← h5, ok_bind]

/-- A condition function that accepts the first combination it is asked about and no other, and
distance functions that always return 1; the world counts the calls. -/
def onlyFirst : Fns (PyGraph × Nat) Int where
  d1 _ _ := Eff.lift (.ok 1)
  d2 _ _ := Eff.lift (.ok 1)
  c _ _ _ _ := fun s => ((s.1, s.2 + 1), .ok (s.2 == 0))

/-- **C88** fails if one distance is declared symmetric and the other is not: the condition
function is asked twice about the same elements, and no table has both of its answers. -/
theorem C88_refuted :
    let log := (buildBothE true 400 byDist byDist 2 2 (intWindow 1) onlyFirst.noted true false
      (PyGraph.new, 0, [])).1.2.2
    Call.c 0 1 0 1 true ∈ log ∧ Call.c 0 1 0 1 false ∈ log ∧
    ¬ ∃ T : Answers Int, ∀ q ∈ log, q.Agrees T := by
  intro log
  have h1 : Call.c 0 1 0 1 true ∈ log := by decide +kernel
  have h2 : Call.c 0 1 0 1 false ∈ log := by decide +kernel
  refine ⟨h1, h2, ?_⟩
  rintro ⟨T, hT⟩
  have e1 : T.c 0 1 0 1 = true := hT _ h1
  have e2 : T.c 0 1 0 1 = false := hT _ h2
  rw [e1] at e2
  cases e2

/-- Distance functions that return how often they have been called, and a condition function that
accepts every second combination. -/
def counting : Fns (PyGraph × Nat) Int where
  d1 _ _ := fun s => ((s.1, s.2 + 1), .ok s.2)
  d2 _ _ := fun s => ((s.1, s.2 + 1), .ok (s.2 - 3))
  c _ _ _ _ := fun s => ((s.1, s.2 + 1), .ok (s.2 % 2 == 0))

/-- Non-vacuity: functions that count. -/
example :
    (buildBothE true 400 byDist byDist 3 3 (intWindow 0) counting.noted true true
      (PyGraph.new, 0, [])).1.2.2 =
      [.d1 0 1 0, .d1 0 2 1, .d1 1 2 2, .d2 0 1 0, .d2 0 2 1, .d2 1 2 2,
        .c 0 1 0 1 true, .c 0 1 1 0 false, .c 0 2 0 2 true, .c 0 2 2 0 false,
        .c 1 2 1 2 true, .c 1 2 2 1 false] ∧
    (buildBothE true 400 byDist byDist 3 3 (intWindow 0) counting true true
      (PyGraph.new, 0)).1.1.toEdgelist = .ok [some (1, 5), some (1, 9), some (5, 9)] ∧
    AsTable counting (fun s => 0 ≤ s.2)
      (buildBothE true 400 byDist byDist 3 3 (intWindow 0) counting.noted true true
        (PyGraph.new, 0, [])) (fun qs => ∃ cs, qs = ((pairs 3 true).map fun p => .d1 p.1 p.2) ++
        ((pairs 3 true).map fun p => .d2 p.1 p.2) ++ cs ∧ cs.Nodup ∧
        ∀ q ∈ cs, ∃ i1 i2 j1 j2, q = .c i1 i2 j1 j2 ∧ (i1, i2) ∈ pairs 3 true ∧
          ((j1, j2) ∈ pairs 3 true ∨ true = true ∧ (j2, j1) ∈ pairs 3 true))
      (fun T pg => buildBoth true 400 pg byDist byDist 3 3 (intWindow 0) T.c T.d1 true T.d2 true) :=
  ⟨by decide +kernel, by decide +kernel, C88_both_partial ⟨fun _ _ _ _ => Nat.zero_le _,
    fun _ _ _ _ => Nat.zero_le _, fun _ _ _ _ _ _ => Nat.zero_le _⟩ (Nat.zero_le _) true 400
    byDist_sorts byDist_sorts (by decide) (by decide) _ true⟩

/-! ### Functions that use the object -/

/-- What a user sees of a built graph is as if it had been built by `build` in a new object, with
the answers of the functions in place of the functions. -/
def SeenAs (build : Answers D → PyGraph → M PyGraph) (pg : PyGraph) (log : List (Call D)) : Prop :=
  ∃ T pg2, (∀ q ∈ log, q.Agrees T) ∧ build T PyGraph.new = .ok pg2 ∧
    pg.toEdgelist = pg2.toEdgelist ∧ pg.toMatrix = pg2.toMatrix ∧
    ∀ srt a, pg.nvert ≠ 0 → a.continueSearch = false →
      pg.getMaxClique srt a = pg2.getMaxClique srt a

theorem AsTable.seen {run : (PyGraph × τ × List (Call D)) × M Unit} {asked : List Question → Prop}
    {build : Answers D → PyGraph → M PyGraph} (h : AsTable F Inv run asked build)
    (hb : ∀ T, IsBuilder (build T)) {pg : PyGraph} {t : τ} {log : List (Call D)}
    (hr : run = ((pg, t, log), .ok ())) : SeenAs build pg log := by
  obtain ⟨pg1, t1, log1, _, ⟨e, _, h⟩ | ⟨T, h1, _, h⟩⟩ := h
  · rw [hr] at h
    cases (Prod.mk.inj h).2
  · rw [hr] at h
    cases hb1 : build T pg1 with
    | error e => rw [hb1] at h; cases (Prod.mk.inj h).2
    | ok pg2 =>
      rw [hb1] at h
      have h6 := (Prod.mk.inj h).1
      have h7 := (Prod.mk.inj h6).2
      obtain rfl : log = log1 := (Prod.mk.inj h7).2
      obtain rfl : pg = pg2 := (Prod.mk.inj h6).1
      obtain ⟨pg3, h2, h3, h4, h5⟩ := (C43_rebuild_partial (hb T) pg1).2 pg hb1
      exact ⟨T, pg3, h1, h2, h3, h4, h5⟩

/-- **C89**, as far as it is true.  The full property: distance and condition functions may use
the object whose `build_edges()` is running, e.g. search it, iterate over it or build it: the
result is the same as for functions that return the same and do not.  Proved: the edges and the
matrix, and what searches return that do not continue another one, are those of a new object.
The functions are arbitrary, and so is the object before the call.  Missing, because false
(`C89_refuted`): searches with `continue_search`; and, as in C88, condition functions if only one
of the distances is declared symmetric (for these see `C89_any_flags_partial`). -/
theorem C89_reentrant_partial [LinearOrder D] [Inhabited D] (F : Fns (PyGraph × τ) D)
    (argLR : Bool) (cap : Nat) {srt1 srt2 : List (PairDist D) → List (PairDist D)}
    (hs1 : Sorts srt1) (hs2 : Sorts srt2) {M N : Nat} (hM : M < 2 ^ 31) (hN : N < 2 ^ 31)
    (w : Window D) (pg pg' : PyGraph) (t t' : τ) (log : List (Call D)) :
    (∀ sym1 sym2,
      buildMetricE argLR cap srt1 srt2 M N w F.noted sym1 sym2 (pg, t, []) =
        ((pg', t', log), .ok ()) →
      SeenAs (fun T pg => buildMetric argLR cap pg srt1 srt2 M N w T.d1 sym1 T.d2 sym2) pg' log) ∧
    (∀ sym,
      buildBothE argLR cap srt1 srt2 M N w F.noted sym sym (pg, t, []) = ((pg', t', log), .ok ()) →
      SeenAs (fun T pg => buildBoth argLR cap pg srt1 srt2 M N w T.c T.d1 sym T.d2 sym) pg' log) ∧
    (buildConditionE argLR cap M N F.noted (pg, t, []) = ((pg', t', log), .ok ()) →
      SeenAs (fun T pg => buildCondition argLR cap pg M N T.c) pg' log) := by
  have hF : F.Keeps fun _ => True :=
    ⟨fun _ _ _ _ => trivial, fun _ _ _ _ => trivial, fun _ _ _ _ _ _ => trivial⟩
  refine ⟨fun sym1 sym2 h => ?_, fun sym h => ?_, fun h => ?_⟩
  · exact (C88_metric hF trivial argLR cap srt1 srt2 hM hN w sym1 sym2).seen
      (fun _ => .metric ..) h
  · exact (C88_both_partial hF trivial argLR cap hs1 hs2 hM hN w sym).seen (fun _ => .both ..) h
  · exact (C88_condition_only hF trivial argLR cap M N).seen (fun _ => .condition ..) h

theorem AsTable.untouched {run : (PyGraph × τ × List (Call D)) × M Unit}
    {asked : List Question → Prop} {build : Answers D → PyGraph → M PyGraph}
    (h : AsTable F (fun s => s.1 = pg) run asked build) {pg' : PyGraph} {t : τ}
    {log : List (Call D)} {e : Fault} (hr : run = ((pg', t, log), .error e)) : pg' = pg := by
  obtain ⟨pg1, t1, log1, h0, ⟨e, _, h⟩ | ⟨T, h1, _, h⟩⟩ := h
  · rw [hr] at h
    exact (Prod.mk.inj (Prod.mk.inj h).1).1.trans h0
  · rw [hr] at h
    cases hb1 : build T pg1 with
    | error e =>
      rw [hb1] at h
      exact (Prod.mk.inj (Prod.mk.inj h).1).1.trans h0
    | ok pg2 => rw [hb1] at h; cases (Prod.mk.inj h).2

/-- Distances on two lines; the first function searches the object when it is called for the first
time, if `b`. -/
def searching (b : Bool) : Fns (PyGraph × Unit) Int where
  d1 i j := fun s =>
    if b && i == 0 && j == 1 then
      match s.1.getMaxClique byDegree {} with
      | .ok (pg, _) => ((pg, s.2), .ok (onLine [0, 1, 4] i j))
      | .error e => (s, .error e)
    else (s, .ok (onLine [0, 1, 4] i j))
  d2 i j := Eff.lift (.ok (onLine [0, 3, 4] i j))
  c _ _ _ _ := Eff.lift (.ok true)

/-- **C89** fails for `continue_search`: the search in the distance function leaves `search_done`
set, and the next `get_correspondence(continue_search=True)` on the new graph returns two pairs
instead of three.  The object held another graph before. -/
theorem C89_refuted :
    let pg0 := get PyGraph.new (buildMetric true 400 PyGraph.new byDist byDist 3 3 (intWindow 5)
      (onLine [0, 1, 4]) true (onLine [0, 3, 4]) true)
    let pg := fun b => (buildMetricE true 400 byDist byDist 3 3 (intWindow 1) (searching b) true true
      (pg0, ())).1.1
    (pg true).finishedAll = true ∧ (pg false).finishedAll = false ∧
    ((pg true).getCorrespondence byDegree 3 { continueSearch := true, timeLimit := some none } >>=
      fun x => .ok x.2) = .ok (.ret ([0, 2], [0, 1])) ∧
    ((pg false).getCorrespondence byDegree 3 { continueSearch := true, timeLimit := some none } >>=
      fun x => .ok x.2) = .ok (.ret ([0, 1, 2], [1, 2, 0])) := by
  decide +kernel

/-- Non-vacuity: the functions of the counterexample return normally and change the object, so
that `C89_reentrant_partial` applies, and the graph is the right one. -/
example :
    let pg0 := get PyGraph.new (buildMetric true 400 PyGraph.new byDist byDist 3 3 (intWindow 5)
      (onLine [0, 1, 4]) true (onLine [0, 3, 4]) true)
    let run := fun b => buildMetricE true 400 byDist byDist 3 3 (intWindow 1) (searching b) true true
      (pg0, ())
    (run true).2 = .ok () ∧ (run true).1.1.toEdgelist = (run false).1.1.toEdgelist ∧
    (run true).1.1.nedges = 12 := by
  decide +kernel

end CM
