import Verif.Lemmas.Lock
import Verif.Lemmas.EdgeCount
import Verif.Props.Effects

/-!
# C88, C89 for distances of which only one is declared symmetric

`build_edges` then asks the condition function twice about the same elements (`C88_refuted`), and
a function with state can answer differently.  What counts is whether it said yes at all.
-/

namespace CM

open Spec Sample

variable {D τ : Type} {F : Fns (PyGraph × τ) D} {Inv : PyGraph × τ → Prop} {pg : PyGraph} {t : τ}

theorem cleanEdges_congr {n : Nat} {es es' : Edges} (hn : 0 < n) (hn' : n < 2 ^ 64)
    (h : ∀ e ∈ es, e.1 ≤ n ∧ e.2 ≤ n) (he : ∀ e, e ∈ es ↔ e ∈ es') :
    cleanEdges n es = cleanEdges n es' := by
  obtain ⟨o, h1, h2, h3⟩ := cleanEdges_spec hn hn' h
  obtain ⟨o', h1', h2', h3'⟩ := cleanEdges_spec (edges := es') hn hn' fun e m => h e ((he e).2 m)
  rw [h1, h1']
  congr 1
  refine List.Perm.eq_of_pairwise (le := lexLt) ?_ h2 h2'
    ((List.perm_ext_iff_of_nodup (lexLt_nodup h2) (lexLt_nodup h2')).2 fun e => by
      rw [h3, h3', he])
  intro a b _ _ hab hba
  unfold lexLt at hab hba
  omega

/-- A table of what was recorded: the distances that were returned, and yes for the combinations
for which the condition function said yes at least once. -/
structure Spec.Summary (T : Answers D) (log : List (Call D)) : Prop where
  d1 : ∀ i j x, .d1 i j x ∈ log → T.d1 i j = x
  d2 : ∀ i j x, .d2 i j x ∈ log → T.d2 i j = x
  c : ∀ i1 i2 j1 j2, T.c i1 i2 j1 j2 = true ↔ .c i1 i2 j1 j2 true ∈ log

/-- The same but for the number of edges. -/
def SameButCount : M PyGraph → M PyGraph → Prop
  | .ok a, .ok b => ∃ m, a = { b with nedges := m }
  | .error e, .error e' => e = e'
  | _, _ => False

theorem selfLoops_length_ne (n : Nat) : (PyGraph.selfLoops n).length ≠ 0 := by
  simp [PyGraph.selfLoops]

section
variable [LinearOrder D] [Inhabited D]

omit [LinearOrder D] [Inhabited D] in
theorem flatMap_sublist {α β : Type} {f g : α → List β} (h : ∀ x, (f x).Sublist (g x)) :
    ∀ l : List α, (l.flatMap f).Sublist (l.flatMap g)
  | [] => List.Sublist.refl _
  | x :: l => by
    rw [List.flatMap_cons, List.flatMap_cons]
    exact List.Sublist.append (h x) (flatMap_sublist h l)

/-- How often the condition can be asked about one combination. -/
theorem askQ_count {srt1 srt2 : List (PairDist D) → List (PairDist D)} (hs1 : Sorts srt1)
    (hs2 : Sorts srt2) (M N : Nat) (sym1 sym2 : Bool) (d1 d2 : Nat → Nat → D) (q : Question) :
    ((srt1 (pairList M sym1 d1)).flatMap fun x =>
      (srt2 (pairList N sym2 d2)).flatMap (askQ sym1 sym2 x)).count q ≤ 2 := by
  have e1 : ((srt1 (pairList M sym1 d1)).map fun p => (p.first, p.second)).Nodup :=
    (((hs1 _).1.map fun p => (p.first, p.second)).nodup_iff).2 pairList_keys
  have e2 : ((srt2 (pairList N sym2 d2)).map fun p => (p.first, p.second)).Nodup :=
    (((hs2 _).1.map fun p => (p.first, p.second)).nodup_iff).2 pairList_keys
  generalize hk1 : ((srt1 (pairList M sym1 d1)).map fun p => (p.first, p.second)) = k1 at e1
  generalize hk2 : ((srt2 (pairList N sym2 d2)).map fun p => (p.first, p.second)) = k2 at e2
  let f : Nat × Nat → Nat × Nat → Question := fun x y => .c x.1 x.2 y.1 y.2
  let g : Nat × Nat → Nat × Nat → Question := fun x y => .c x.1 x.2 y.2 y.1
  have hsub : ((srt1 (pairList M sym1 d1)).flatMap fun x =>
      (srt2 (pairList N sym2 d2)).flatMap (askQ sym1 sym2 x)).count q ≤
      (k1.flatMap fun x => k2.flatMap fun y => [f x y] ++ [g x y]).count q := by
    subst hk1 hk2
    rw [List.flatMap_map]
    refine List.Sublist.count_le _ ?_
    generalize srt1 (pairList M sym1 d1) = l1
    generalize srt2 (pairList N sym2 d2) = l2
    refine flatMap_sublist (fun x => ?_) _
    rw [List.flatMap_map]
    refine flatMap_sublist (fun y => ?_) _
    unfold askQ
    split
    · exact List.sublist_append_left _ _
    · exact List.Sublist.refl _
  refine hsub.trans ?_
  have hp : (k1.flatMap fun x => k2.flatMap fun y => [f x y] ++ [g x y]).Perm
      ((k1.flatMap fun x => k2.map (f x)) ++ (k1.flatMap fun x => k2.map (g x))) := by
    refine List.Perm.trans ?_ (List.flatMap_append_perm k1 _ _).symm
    refine List.Perm.flatMap_left k1 fun x _ => ?_
    refine ((List.flatMap_append_perm k2 (fun y => [f x y]) (fun y => [g x y])).symm).trans ?_
    rw [← List.map_eq_flatMap, ← List.map_eq_flatMap]
  rw [hp.count_eq, List.count_append]
  have n1 : (k1.flatMap fun x => k2.map (f x)).Nodup := by
    refine nodup_keyed (fun q => match q with | .c i1 i2 _ _ => (i1, i2) | _ => (0, 0)) e1
      (fun x _ => e2.map fun y y' h => ?_) ?_
    · injection h with _ _ h1 h2
      exact Prod.ext h1 h2
    · intro x _ e he
      obtain ⟨y, _, rfl⟩ := List.mem_map.1 he
      rfl
  have n2 : (k1.flatMap fun x => k2.map (g x)).Nodup := by
    refine nodup_keyed (fun q => match q with | .c i1 i2 _ _ => (i1, i2) | _ => (0, 0)) e1
      (fun x _ => e2.map fun y y' h => ?_) ?_
    · injection h with _ _ h1 h2
      exact Prod.ext h2 h1
    · intro x _ e he
      obtain ⟨y, _, rfl⟩ := List.mem_map.1 he
      rfl
  have := List.nodup_iff_count_le_one.1 n1 q
  have := List.nodup_iff_count_le_one.1 n2 q
  omega

theorem pairVertex_le {M N i j : Nat} (hb : M * N < 2 ^ 63) (hi : i < M) (hj : j < N) :
    pairVertex N i j ≤ umul M N := by
  have h1 : i * N + N ≤ M * N := by
    have := Nat.mul_le_mul_right N hi
    rwa [Nat.succ_mul] at this
  unfold pairVertex uadd umul
  have h64 : (2 : Nat) ^ 63 < 2 ^ 64 := by decide
  rw [Nat.mod_eq_of_lt (a := M * N) (by omega), Nat.mod_eq_of_lt (a := i * N) (by omega),
    Nat.mod_eq_of_lt (a := i * N + j) (by omega), Nat.mod_eq_of_lt (by omega)]
  omega

/-- **C88** for `build_edges` with distances and a condition, for all flags.  The full property
is in `C88_both_partial`.  Proved: every pair of elements is asked for exactly once, every
combination of pairs at most twice, and the graph is that of the table that says yes if the
condition function said yes at least once.  Only the number of edges can be another one: an edge
counts for every yes. -/
theorem C88_any_flags_partial (hF : F.Keeps Inv) (h0 : Inv (pg, t))
    (argLR : Bool) (cap : Nat) {srt1 srt2 : List (PairDist D) → List (PairDist D)}
    (hs1 : Sorts srt1) (hs2 : Sorts srt2) {M N : Nat} (hM : M < 2 ^ 31) (hN : N < 2 ^ 31)
    (w : Window D) (sym1 sym2 : Bool) :
    ∃ pg1 t1 log r, Inv (pg1, t1) ∧
      buildBothE argLR cap srt1 srt2 M N w F.noted sym1 sym2 (pg, t, []) =
        ended (pg1, t1, log) r ∧
      ((∃ e, F.Fails Inv e ∧ r = .error e) ∨ ∃ T cs, Summary T log ∧
        log.map Call.question = ((pairs M sym1).map fun p => .d1 p.1 p.2) ++
          ((pairs N sym2).map fun p => .d2 p.1 p.2) ++ cs ∧ (∀ q, cs.count q ≤ 2) ∧
        (∀ q ∈ cs, ∃ i1 i2 j1 j2, q = .c i1 i2 j1 j2 ∧ (i1, i2) ∈ pairs M sym1 ∧
          ((j1, j2) ∈ pairs N sym2 ∨ (j2, j1) ∈ pairs N sym2)) ∧
        SameButCount r (buildBoth argLR cap pg1 srt1 srt2 M N w T.c T.d1 sym1 T.d2 sym2)) := by
  rw [buildBothE_eq]
  obtain ⟨pg1, t1, l1, r1, i1, e1, q1, c1⟩ :=
    sim_fillBoth hF srt1 srt2 hM hN sym1 sym2 pg t [] h0
  rw [List.nil_append] at e1
  rcases c1 with ⟨e, he, rfl⟩ | ⟨c1, p1⟩
  · refine ⟨pg1, t1, l1, .error e, i1, ?_, Or.inl ⟨e, he, rfl⟩⟩
    rw [Eff.run_error (Eff.run_error e1)]
    rfl
  · obtain ⟨T0, hT0⟩ := exists_answers l1 ((distQ_nodup M N sym1 sym2).sublist q1)
    have hr1 := c1 T0 hT0
    subst hr1
    have p1 := p1 _ rfl
    have hd1 : ∀ x ∈ srt1 (pairList M sym1 T0.d1), x.first < M ∧ x.second < M := fun x hx => by
      have := mem_pairList.1 (hs1.mem.1 hx)
      exact ⟨this.1, this.2.1⟩
    have hd2 : ∀ x ∈ srt2 (pairList N sym2 T0.d2), x.first < N ∧ x.second < N := fun x hx => by
      have := mem_pairList.1 (hs2.mem.1 hx)
      exact ⟨this.1, this.2.1⟩
    have hno : ∀ i1 i2 j1 j2 b, Call.c i1 i2 j1 j2 b ∉ l1 := by
      intro i1 i2 j1 j2 b hm
      have := List.mem_map_of_mem (f := Call.question) hm
      rw [p1, fillQ_eq, fillQ_eq] at this
      rcases List.mem_append.1 this with h | h <;> obtain ⟨_, _, h⟩ := List.mem_map.1 h <;> cases h
    obtain ⟨pg2, t2, l2, r2, i2, e2, q2, c2⟩ := sim_efrCondition hF M N sym1 sym2
      (srt1 (pairList M sym1 T0.d1)) (srt2 (pairList N sym2 T0.d2)) w pg1 t1 l1 i1
    have hrun : (fillBoth srt1 srt2 M N F.noted sym1 sym2 >>= fun ps =>
        efrConditionE M N sym1 sym2 ps.1 ps.2 w F.noted.c) (pg, t, []) =
        ((pg2, t2, l1 ++ l2), r2) := (Eff.run_ok e1).trans e2
    rw [run_load argLR cap hrun]
    refine ⟨pg2, t2, l1 ++ l2, _, i2, rfl, ?_⟩
    classical
    let T : Answers D := { T0 with c := fun i1 i2 j1 j2 => decide (.c i1 i2 j1 j2 true ∈ l1 ++ l2) }
    obtain ⟨pg3, t3, l3, r3, _, e3, c3⟩ :=
      lock_efrCondition hF sym1 sym2 hd1 hd2 w T.c pg1 t1 l1 i1
    have hs := e2.symm.trans e3
    obtain rfl : l2 = l3 := List.append_cancel_left
      (Prod.mk.inj (Prod.mk.inj (Prod.mk.inj hs).1).2).2
    obtain rfl : r2 = r3 := (Prod.mk.inj hs).2
    have hT : Summary T (l1 ++ l2) := by
      refine ⟨fun i j x hx => ?_, fun i j x hx => ?_, fun i1 i2 j1 j2 => ?_⟩
      · rcases List.mem_append.1 hx with hx | hx
        · exact hT0 _ hx
        · have := q2.subset (List.mem_map_of_mem (f := Call.question) hx)
          obtain ⟨_, _, this⟩ := List.mem_flatMap.1 this
          obtain ⟨_, _, this⟩ := List.mem_flatMap.1 this
          unfold askQ at this
          split at this <;> simp [Call.question] at this
      · rcases List.mem_append.1 hx with hx | hx
        · exact hT0 _ hx
        · have := q2.subset (List.mem_map_of_mem (f := Call.question) hx)
          obtain ⟨_, _, this⟩ := List.mem_flatMap.1 this
          obtain ⟨_, _, this⟩ := List.mem_flatMap.1 this
          unfold askQ at this
          split at this <;> simp [Call.question] at this
      · exact decide_eq_true_iff
    have hqs : (l1 ++ l2).map Call.question = ((pairs M sym1).map fun p => .d1 p.1 p.2) ++
        ((pairs N sym2).map fun p => .d2 p.1 p.2) ++ l2.map Call.question := by
      rw [List.map_append, p1, fillQ_eq, fillQ_eq]
    have hcount : ∀ q, (l2.map Call.question).count q ≤ 2 := fun q =>
      (q2.count_le q).trans (askQ_count hs1 hs2 M N sym1 sym2 T0.d1 T0.d2 q)
    have habout : ∀ q ∈ l2.map Call.question, ∃ i1 i2 j1 j2, q = .c i1 i2 j1 j2 ∧
        (i1, i2) ∈ pairs M sym1 ∧ ((j1, j2) ∈ pairs N sym2 ∨ (j2, j1) ∈ pairs N sym2) := by
      intro q hq
      obtain ⟨x, hx, hq⟩ := List.mem_flatMap.1 (q2.subset hq)
      obtain ⟨y, hy, hq⟩ := List.mem_flatMap.1 hq
      obtain ⟨x1, x2, x3, x4, _⟩ := mem_pairList.1 (hs1.mem.1 hx)
      obtain ⟨y1, y2, y3, y4, _⟩ := mem_pairList.1 (hs2.mem.1 hy)
      have hp : (x.first, x.second) ∈ pairs M sym1 := mem_pairs.2 ⟨x1, x2, x3, x4⟩
      have hp' : (y.first, y.second) ∈ pairs N sym2 := mem_pairs.2 ⟨y1, y2, y3, y4⟩
      unfold askQ at hq
      split at hq
      · exact ⟨_, _, _, _, List.mem_singleton.1 hq, hp, Or.inl hp'⟩
      · rcases List.mem_cons.1 hq with rfl | hq
        · exact ⟨_, _, _, _, rfl, hp, Or.inl hp'⟩
        · exact ⟨_, _, _, _, List.mem_singleton.1 hq, hp, Or.inr hp'⟩
    rcases c3 with ⟨e, he, rfl⟩ | ⟨e, rfl, he⟩ | ⟨a, b, rfl, hb, ha1, hb1, hS⟩
    · exact Or.inl ⟨e, he, rfl⟩
    · refine Or.inr ⟨T, _, hT, hqs, hcount, habout, ?_⟩
      simp only [buildBoth, fillDists_spec hM, fillDists_spec hN, ok_bind]
      have he' : efrCondition M N sym1 sym2 (srt1 (pairList M sym1 T.d1))
        (srt2 (pairList N sym2 T.d2)) w T.c = .error e := he
      rw [he']
      rfl
    · refine Or.inr ⟨T, _, hT, hqs, hcount, habout, ?_⟩
      simp only [buildBoth, fillDists_spec hM, fillDists_spec hN, ok_bind]
      have hb' : efrCondition M N sym1 sym2 (srt1 (pairList M sym1 T.d1))
        (srt2 (pairList N sym2 T.d2)) w T.c = .ok b := hb
      rw [hb', ok_bind]
      obtain ⟨n, m, es⟩ := a
      obtain ⟨n', m', es'⟩ := b
      simp only at ha1 hb1 hS ⊢
      subst ha1 hb1
      have hmem : ∀ e, e ∈ es ↔ e ∈ es' := by
        intro e
        rw [hS.said, hS.table]
        refine or_congr_right ⟨?_, ?_⟩
        · rintro ⟨k1, k2, m1, m2, hm, hJ⟩
          exact ⟨k1, k2, m1, m2, true, hm, decide_eq_true (List.mem_append_right _ hm), hJ⟩
        · rintro ⟨k1, k2, m1, m2, b, hm, hc, hJ⟩
          rcases List.mem_append.1 (of_decide_eq_true hc) with h | h
          · exact (hno _ _ _ _ _ h).elim
          · exact ⟨k1, k2, m1, m2, h, hJ⟩
      have hMN : M * N < 2 ^ 63 := by
        have := Nat.mul_lt_mul'' hM hN
        have h63 : (2 : Nat) ^ 31 * 2 ^ 31 < 2 ^ 63 := by decide
        omega
      have hle : umul M N ≤ M * N := Nat.mod_le _ _
      have h64 : (2 : Nat) ^ 63 + 1 < 2 ^ 64 := by decide
      have hclean : cleanEdges (umul M N + 1) es = cleanEdges (umul M N + 1) es' := by
        refine cleanEdges_congr (by omega) (by omega) (fun e he => ?_) hmem
        rcases (hS.said e).1 he with h | ⟨k1, k2, m1, m2, hm, hJ⟩
        · have := mem_selfLoops.1 h
          omega
        · obtain ⟨a1, a2, a3, a4⟩ := hS.range _ _ _ _ _ hm
          have b1 := pairVertex_le hMN a1 a3
          have b2 := pairVertex_le hMN a2 a4
          rcases hJ with rfl | rfl <;> simp only <;> omega
      have hne : es.length ≠ 0 := by
        intro h
        have h0 : (0, 0) ∈ es := (hS.said _).2 (Or.inl (mem_selfLoops.2 ⟨rfl, Nat.zero_le _⟩))
        rw [List.eq_nil_of_length_eq_zero h] at h0
        cases h0
      have hne' : es'.length ≠ 0 := by
        intro h
        have h0 : (0, 0) ∈ es' := (hS.table _).2 (Or.inl (mem_selfLoops.2 ⟨rfl, Nat.zero_le _⟩))
        rw [List.eq_nil_of_length_eq_zero h] at h0
        cases h0
      rw [if_neg hne, if_neg hne']
      unfold PyGraph.loadGraph
      have hctor : Graph.ctor argLR cap (umul M N) es = Graph.ctor argLR cap (umul M N) es' := by
        unfold Graph.ctor
        rw [hclean]
      rw [hctor]
      cases Graph.ctor argLR cap (umul M N) es' with
      | error e => exact rfl
      | ok G => exact ⟨m, rfl⟩

theorem toMatrix_nedges (pg : PyGraph) (m : Nat) :
    ({ pg with nedges := m } : PyGraph).toMatrix = pg.toMatrix := rfl

/-- What a search finds does not depend on the number of edges that is displayed. -/
theorem getMaxClique_nedges (pg : PyGraph) (m : Nat)
    (srt : List Graph.VData → List Graph.VData) (a : PyGraph.Args) :
    ({ pg with nedges := m } : PyGraph).getMaxClique srt a =
      (pg.getMaxClique srt a).map fun x => ({ x.1 with nedges := m }, x.2) := by
  unfold PyGraph.getMaxClique PyGraph.checkLoaded
  simp only
  generalize (if pg.nvert = 0 then none else pg.G) = o
  cases o with
  | none => rfl
  | some G =>
    simp only
    generalize Graph.findMaxCliques _ _ _ _ _ _ = o1
    cases o1 with
    | error e => rfl
    | ok x =>
      obtain ⟨G1, cv⟩ := x
      rw [ok_bind, ok_bind]
      simp only
      cases G1.getClique G1.curLoc with
      | error e => rfl
      | ok y =>
        obtain ⟨G2, ans⟩ := y
        rw [ok_bind, ok_bind]
        simp only
        split <;> rfl

/-- **C89** for distances and a condition, for all flags, as far as it is true.  The full property
is in `C89_reentrant_partial`.  Proved: the matrix, and what searches return that do not continue
another one, are those of a new object built with the answers of the functions. -/
theorem C89_any_flags_partial (F : Fns (PyGraph × τ) D) (argLR : Bool) (cap : Nat)
    {srt1 srt2 : List (PairDist D) → List (PairDist D)}
    (hs1 : Sorts srt1) (hs2 : Sorts srt2) {M N : Nat} (hM : M < 2 ^ 31) (hN : N < 2 ^ 31)
    (w : Window D) (sym1 sym2 : Bool) (pg pg' : PyGraph) (t t' : τ) (log : List (Call D))
    (h : buildBothE argLR cap srt1 srt2 M N w F.noted sym1 sym2 (pg, t, []) =
      ((pg', t', log), .ok ())) :
    ∃ T pg2, Summary T log ∧
      buildBoth argLR cap PyGraph.new srt1 srt2 M N w T.c T.d1 sym1 T.d2 sym2 = .ok pg2 ∧
      pg'.toMatrix = pg2.toMatrix ∧ ∀ srt a, pg'.nvert ≠ 0 → a.continueSearch = false →
        (pg'.getMaxClique srt a).map Prod.snd = (pg2.getMaxClique srt a).map Prod.snd := by
  have hF : F.Keeps fun _ => True :=
    ⟨fun _ _ _ _ => trivial, fun _ _ _ _ => trivial, fun _ _ _ _ _ _ => trivial⟩
  obtain ⟨pg1, t1, log1, r, _, h2, h3⟩ :=
    C88_any_flags_partial hF trivial argLR cap hs1 hs2 hM hN w sym1 sym2 (pg := pg) (t := t)
  rw [h] at h2
  cases r with
  | error e => cases (Prod.mk.inj h2).2
  | ok pg3 =>
    have h4 := (Prod.mk.inj h2).1
    obtain rfl : pg' = pg3 := (Prod.mk.inj h4).1
    obtain rfl : log = log1 := (Prod.mk.inj (Prod.mk.inj h4).2).2
    rcases h3 with ⟨e, _, h3⟩ | ⟨T, cs, hT, _, _, _, h3⟩
    · cases h3
    · cases hb : buildBoth argLR cap pg1 srt1 srt2 M N w T.c T.d1 sym1 T.d2 sym2 with
      | error e => rw [hb] at h3; exact h3.elim
      | ok pg4 =>
        rw [hb] at h3
        obtain ⟨m, rfl⟩ := h3
        obtain ⟨pg5, h5, h6, h7, h8⟩ := (C43_rebuild_partial
          (IsBuilder.both (argLR := argLR) (cap := cap) ..) pg1).2 pg4 hb
        refine ⟨T, pg5, hT, h5, h7, fun srt a ha hc => ?_⟩
        rw [getMaxClique_nedges, h8 srt a ha hc]
        cases pg5.getMaxClique srt a <;> rfl

/-- **C89**, for functions that leave the object alone, whatever else they do: it is unchanged if
`build_edges()` does not return normally. -/
theorem C89_untouched {F : Fns (PyGraph × τ) D}
    (hF : F.Keeps fun s => s.1 = pg)
    (argLR : Bool) (cap : Nat) {srt1 srt2 : List (PairDist D) → List (PairDist D)}
    (hs1 : Sorts srt1) (hs2 : Sorts srt2) {M N : Nat} (hM : M < 2 ^ 31) (hN : N < 2 ^ 31)
    (w : Window D) (sym1 sym2 : Bool) (t t' : τ) (pg' : PyGraph) (e : Fault) :
    (buildMetricE argLR cap srt1 srt2 M N w F sym1 sym2 (pg, t) = ((pg', t'), .error e) →
      pg' = pg) ∧
    (buildBothE argLR cap srt1 srt2 M N w F sym1 sym2 (pg, t) = ((pg', t'), .error e) →
      pg' = pg) ∧
    (buildConditionE argLR cap M N F (pg, t) = ((pg', t'), .error e) → pg' = pg) := by
  refine ⟨fun h => ?_, fun h => ?_, fun h => ?_⟩
  · obtain ⟨p, u, l, r, h1, h2⟩ :=
      (C88_recording F argLR cap srt1 srt2 M N w sym1 sym2 pg t []).1
    obtain ⟨h3, rfl⟩ := Prod.mk.inj (h2.symm.trans h)
    exact (Prod.mk.inj h3).1.symm.trans
      ((C88_metric hF rfl argLR cap srt1 srt2 hM hN w sym1 sym2).untouched h1)
  · obtain ⟨p, u, l, r, h1, h2⟩ :=
      (C88_recording F argLR cap srt1 srt2 M N w sym1 sym2 pg t []).2.1
    obtain ⟨h3, rfl⟩ := Prod.mk.inj (h2.symm.trans h)
    refine (Prod.mk.inj h3).1.symm.trans ?_
    obtain ⟨pg2, t2, log2, r, h4, h5, _⟩ :=
      C88_any_flags_partial hF rfl argLR cap hs1 hs2 hM hN w sym1 sym2 (t := t)
    have h5 := h1.symm.trans h5
    cases r with
    | error e => exact (Prod.mk.inj (Prod.mk.inj h5).1).1.trans h4
    | ok pg3 => cases (Prod.mk.inj h5).2
  · obtain ⟨p, u, l, r, h1, h2⟩ :=
      (C88_recording F argLR cap srt1 srt2 M N w sym1 sym2 pg t []).2.2
    obtain ⟨h3, rfl⟩ := Prod.mk.inj (h2.symm.trans h)
    exact (Prod.mk.inj h3).1.symm.trans
      ((C88_condition_only hF rfl argLR cap M N).untouched h1)

/-- Non-vacuity: the function of `C88_refuted` answers yes and no about the same elements, and
what is built is the graph of the table with the yes. -/
example :
    let run := fun sym2 => buildBothE true 400 byDist byDist 2 2 (intWindow 1) onlyFirst.noted true
      sym2 (PyGraph.new, 0, [])
    (run false).2 = .ok () ∧
    (run false).1.1.toMatrix = (get PyGraph.new (buildBoth true 400 PyGraph.new byDist byDist 2 2
      (intWindow 1) (fun i1 i2 j1 j2 => i1 == 0 && i2 == 1 && j1 == 0 && j2 == 1)
      (fun _ _ => 1) true (fun _ _ => 1) false)).toMatrix ∧
    (run false).1.2.2.length = 7 := by
  decide +kernel

end

end CM
