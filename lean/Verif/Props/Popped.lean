import Verif.Lemmas.PoppedW
import Verif.Props.MaxClique
import Verif.Props.Iteration
import Verif.Props.Object
import Verif.Props.WeightedObject

/-!
# C101: nothing is used after it was destroyed

The calls as the C++ standard reads them (`Model/Popped`): using an element of a `std::vector`
after `pop_back` is undefined.
-/

namespace CM

open Spec

section

open Graph

variable {pg : PyGraph} {n : Nat} {S : SimpleGraph Nat}

/-- **C101**, the part that holds.  On any `Graph` object, a call of `get_max_clique` and a
complete iteration either have undefined behaviour because they use a destroyed element, or do
exactly what the other properties say about them.  Missing: that they are never undefined
(`C101_search_undefined`, `C101_iteration_undefined`, `C101_refuted`). -/
theorem C101_same_or_undefined_partial (pg : PyGraph)
    (srt : List Graph.VData → List Graph.VData) (a : PyGraph.Args) (k : Nat) :
    (pg.getMaxCliqueStd srt a = pg.getMaxClique srt a ∨
      pg.getMaxCliqueStd srt a = .error .ub) ∧
    (pg.listCliquesStd k = pg.listCliques k ∨ pg.listCliquesStd k = .error .ub) :=
  ⟨PyGraph.getMaxCliqueStd_or srt pg a, PyGraph.listCliquesStd_or pg k⟩

/-- **C101**, the other part that holds: a timed search, a search with the heuristic alone and
listings of the cliques of size 0 or 1 use nothing that was destroyed. -/
theorem C101_defined_partial (pg : PyGraph) :
    (∀ (srt : List Graph.VData → List Graph.VData) (a : PyGraph.Args),
      a.useDfs = false ∨ a.timeLimit ≠ none →
      pg.getMaxCliqueStd srt a = pg.getMaxClique srt a) ∧
    ∀ k ≤ 1, pg.listCliquesStd k = pg.listCliques k := by
  refine ⟨fun srt a h => ?_, fun k hk => listCliquesStd_small pg hk⟩
  have key : ∀ (G : Graph) sv hh, G.findMaxCliquesStd srt sv hh a.useDfs a.timeLimit =
      G.findMaxCliques srt sv hh a.useDfs a.timeLimit := by
    intro G sv hh
    unfold Graph.findMaxCliquesStd Graph.findMaxCliques
    rcases h with h | h
    · simp only [h, Bool.false_eq_true, if_false]
    · cases ht : a.timeLimit with
      | none => exact absurd ht h
      | some t => rfl
  unfold PyGraph.getMaxCliqueStd PyGraph.getMaxClique
  simp only [key]
  rfl

/-- **C101** fails for untimed searches: on a freshly loaded graph, a search without the heuristic,
whose lower bound is below and whose upper bound is above the clique number `l.length`, has
undefined behaviour whenever some vertex has at least `l.length` later neighbours. -/
theorem C101_search_undefined (h : Usable pg n S) {srt : List Graph.VData → List Graph.VData}
    (hsrt : ∀ l, (srt l).Perm l) {a : PyGraph.Args} (hd : a.useDfs = true)
    (ht : a.timeLimit = none) (hh : a.useHeuristic = false) {l : List Nat}
    (hl : IsMaxCliqueList S n l) (hlo : 1 ≤ a.lowerBound) (hlb : a.lowerBound < l.length)
    (hub : l.length < a.upperBound) (hv : ∃ v, 1 ≤ v ∧ v ≤ n ∧ l.length ≤ later S n v) :
    pg.getMaxCliqueStd srt a = .error .ub := by
  obtain ⟨G, hF⟩ := h.fresh
  obtain ⟨G', i, h1, h2, h3, h4⟩ := getMaxClique_spec hF.pyok hsrt a
  obtain ⟨_, h4⟩ := h4 (Or.inl ht) hF.mcs
  obtain ⟨hbest, _⟩ := h4 hd (Or.inl ht)
  have hO := hF.pyok.of
  have w := hF.pyok.ok.wf.str
  have hlim := limit_eq hO w hF.bounds
  obtain ⟨v, v1, v2, v3⟩ := hv
  have hsup := Finset.le_sup (f := later S n) (show v ∈ Finset.Icc 1 n from Finset.mem_Icc.2 ⟨v1, v2⟩)
  have e1 : (bounded G a).curMax = a.lowerBound := by
    unfold bounded
    simp only [hF.cm]
    split <;> omega
  have e2 : l.length < (bounded G a).limit := by
    unfold bounded
    simp only
    split <;> omega
  have hO' := (hO.frame (bounded_frame G a)).frame h3.frame
  have hge := best_spec hO' h2.wf.str hbest hl.1 (by omega)
  have hle : G'.curMax ≤ l.length := by
    rcases h3.best with ⟨b1, _⟩ | ⟨b1, b2, b3⟩
    · omega
    · have hn0 : G'.curLoc ≠ 0 := by
        apply imp_loc (hO.frame (bounded_frame G a)) (bounded_ok hF.pyok.ok a).wf.str
          h3 h2 (by omega)
        exact hF.loc
      have hcl := cliqueAt_clique hO' h2.wf.str h2.loc (h2.cliq _ h2.loc) hn0
      have := hl.2 _ hcl
      rw [cliqueAt_length, h3.frame.vb] at this
      omega
  rcases PyGraph.getMaxCliqueStd_or srt pg a with h5 | h5
  · exfalso
    rw [h1] at h5
    unfold PyGraph.getMaxCliqueStd at h5
    dsimp only at h5
    have hld : PyGraph.checkLoaded { pg with
        currentVertex := if a.continueSearch = true then pg.currentVertex else 0 } = some G :=
      hF.pyok.loaded
    rw [hld] at h5
    dsimp only at h5
    obtain ⟨⟨G2, j⟩, h6, h5⟩ := bind_eq_ok.1 h5
    obtain ⟨⟨G3, ans⟩, h7, h5⟩ := bind_eq_ok.1 h5
    have h8 : G2.curMax = a.lowerBound ∨ G2.limit ≤ G2.curMax := by
      unfold Graph.findMaxCliquesStd at h6
      simp only [hd, ht, hh, ite_self, Bool.false_eq_true, if_false, if_true, ok_bind] at h6
      have := Graph.stackGraphStd_ok h6
      rw [← e1]
      exact this
    have h9 : G3.curMax = G2.curMax ∧ G3.limit = G2.limit := by
      unfold Graph.getClique at h7
      obtain ⟨_, _, h7⟩ := bind_eq_ok.1 h7
      obtain ⟨_, _, h7⟩ := bind_eq_ok.1 h7
      obtain ⟨_, _, h7⟩ := bind_eq_ok.1 h7
      cases h7
      exact ⟨rfl, rfl⟩
    have h10 : G3 = G' := by
      dsimp only at h5
      split at h5
      · exact Option.some.inj (congrArg (fun x => x.1.G) (Except.ok.inj h5))
      · exact Option.some.inj (congrArg (fun x => x.1.G) (Except.ok.inj h5))
    subst h10
    have := h3.lim
    omega
  · exact h5

/-- **C101** fails for iterations: whatever was done with the object before, completing an
iteration over the cliques of size `k ≥ 2` that yields at least one has undefined behaviour. -/
theorem C101_iteration_undefined (h : Usable pg n S) {ops : List Op} (hl : ∀ op ∈ ops, op.Legal)
    {k : Nat} (hk : 2 ≤ k) :
    ∃ pg1 pg2 cs, runs ops pg = .ok pg1 ∧ pg1.listCliques k = .ok (pg2, cs) ∧
      (cs ≠ [] → pg1.listCliquesStd k = .error .ub) := by
  obtain ⟨G, hF⟩ := h.fresh
  obtain ⟨pg1, G1, a1, a2, _⟩ := runs_spec ops hF.pyok hl
  obtain ⟨G2, cs, b1, _⟩ := listCliques_spec a2 k
  exact ⟨pg1, _, cs, a1, b1, listCliquesStd_stuck
    ⟨G1, a2.g, by rw [a2.nv]; exact a2.of.nv⟩ hk b1⟩

/-- **C101** fails for iterations over a freshly loaded graph that has a clique of the wanted
size `k ≥ 2` without vertex 1. -/
theorem C101_fresh_iteration_undefined (h : Usable pg n S) {k : Nat} (hk : 2 ≤ k) {l : List Nat}
    (hl : IsCliqueList S n l) (hlen : l.length = k) (h1 : 1 ∉ l) :
    pg.listCliquesStd k = .error .ub := by
  obtain ⟨pg1, pg2, cs, a1, a2, a3⟩ :=
    C20_without_one_partial h (ops := []) (by simp) (by simp) (show 1 ≤ k by omega)
  obtain ⟨pg1', _, cs', b1, b2, b3⟩ := C101_iteration_undefined h (ops := []) (by simp) hk
  cases a1
  cases b1
  rw [a2] at b2
  cases b2
  exact b3 (List.ne_nil_of_mem (a3 l hl hlen (Or.inr h1)))

end

section

open NWG

variable {R : Type} [Zero R] [Add R] [Sub R] [NatCast R] [LT R] [LE R] [DecidableLT R]
  [DecidableLE R] {pg : PyNW R} {n : Nat} {S : SimpleGraph Nat} {ω : Nat → R}

/-- **C101** for weighted graphs, the part that holds: calls on any `NWGraph` object either use a
destroyed element or do what the other properties say.  Missing: that they never use one
(`C101_weighted_undefined`, `C101_refuted_weighted`). -/
theorem C101_weighted_same_or_undefined_partial (pg : PyNW R)
    (srt : List (WData R) → List (WData R)) (junk : Nat → R) (a : PyNW.Args R) (W : R) :
    (pg.getMaxCliqueStd srt junk a = pg.getMaxClique srt junk a ∨
      pg.getMaxCliqueStd srt junk a = .error .ub) ∧
    (pg.listCliquesStd junk W = pg.listCliques junk W ∨
      pg.listCliquesStd junk W = .error .ub) :=
  ⟨PyNW.getMaxCliqueStd_or srt junk pg a, PyNW.listCliquesStd_or junk pg W⟩

/-- **C101** for weighted graphs, the other part that holds: a search with the heuristic alone uses
nothing that was destroyed. -/
theorem C101_weighted_defined_partial (pg : PyNW R) (srt : List (WData R) → List (WData R))
    (junk : Nat → R) {a : PyNW.Args R} (h : a.useDfs = false) :
    pg.getMaxCliqueStd srt junk a = pg.getMaxClique srt junk a := by
  have key : ∀ (H : NWG R) sv hh, H.findMaxCliquesStd srt junk sv hh a.useDfs =
      H.findMaxCliques srt junk sv hh a.useDfs := by
    intro H sv hh
    unfold NWG.findMaxCliquesStd NWG.findMaxCliques
    simp only [h, Bool.false_eq_true, if_false]
  unfold PyNW.getMaxCliqueStd PyNW.getMaxClique
  simp only [key]
  rfl

/-- **C101** fails for weighted iterations: whatever was done with the object before, completing an
iteration that yields at least one clique has undefined behaviour. -/
theorem C101_weighted_undefined (h : WUsable pg n S ω) {ops : List (WOp R)}
    (hl : ∀ op ∈ ops, op.Legal) (junk : Nat → R) (W : R) :
    ∃ pg1 pg2 cs, wruns ops pg = .ok pg1 ∧ pg1.listCliques junk W = .ok (pg2, cs) ∧
      (cs ≠ [] → pg1.listCliquesStd junk W = .error .ub) := by
  obtain ⟨H, hF⟩ := AW.wusable_fresh h
  obtain ⟨pg1, H1, a1, a2, _⟩ := AW.wruns_spec ops hF.pyok hl
  obtain ⟨_, _, H2, _, cs, _, _, _, _, b1, _⟩ := AW.wlistCliques_spec a2 junk W
  exact ⟨pg1, _, cs, a1, b1, wlistCliquesStd_stuck
    ⟨H1, a2.g, by rw [a2.nv]; exact a2.of.nv⟩ b1⟩

end

/-- **C101** fails: `get_max_clique()` on a four-cycle, and iterating over the edges or the
triangles of the kite. -/
theorem C101_refuted : Usable Sample.square 5 (ofPairs Sample.squareRows) ∧
    Sample.square.getMaxCliqueStd Sample.byDegree {} = .error .ub ∧
    Usable Sample.kite 5 (ofPairs Sample.rows) ∧
    Sample.kite.listCliquesStd 2 = .error .ub ∧ Sample.kite.listCliquesStd 3 = .error .ub := by
  refine ⟨Sample.square_usable, ?_, Sample.kite_usable, ?_, ?_⟩ <;> decide +kernel

/-- **C101** fails for weighted graphs. -/
theorem C101_refuted_weighted : WUsable Sample.wkite 5 (ofPairs Sample.rows)
      (nth ([2, 1/2, 3, 1, 10] : List Rat)) ∧
    Sample.wkite.getMaxCliqueStd Sample.byW (fun _ => 0) {} = .error .ub ∧
    Sample.wkite.listCliquesStd (fun _ => 0) 3 = .error .ub := by
  refine ⟨Sample.wkite_usable, ?_, ?_⟩ <;> decide +kernel

/-- Some calls have no undefined behaviour, also with the exact search. -/
example : (Sample.kite.getMaxCliqueStd Sample.byDegree {} >>= fun x => .ok x.2) =
      .ok (.ret [1, 2, 3, 4]) ∧
    (Sample.kite.listCliquesStd 1 >>= fun x => .ok x.2) = .ok [[1], [2], [3], [4], [5]] ∧
    (Sample.square.getMaxCliqueStd Sample.byDegree { timeLimit := some none } >>=
      fun x => .ok x.2) = (Sample.square.getMaxClique Sample.byDegree {} >>= fun x => .ok x.2) ∧
    (Sample.wkite.getMaxCliqueStd Sample.byW (fun _ => 0) { useDfs := false } >>=
      fun x => .ok x.2) = .ok (.ret [1, 2, 3, 4]) := by
  decide +kernel

namespace Sample

/-- The cliques of the four-cycle have at most two vertices. -/
theorem square_max : IsMaxCliqueList (ofPairs squareRows) 5 [1, 3] := by
  obtain ⟨pg', l, h1, h2⟩ := C10_default_call square_usable (by decide) (fun _ => byDegree_perm _)
  have h3 : (square.getMaxClique byDegree {} >>= fun x => .ok x.2) = .ok (.ret [1, 3]) := by
    decide +kernel
  rw [h1] at h3
  cases h3
  exact h2

theorem square_later : 2 ≤ later (ofPairs squareRows) 5 1 := by
  classical
  have hdeg : ∀ v ∈ [1, 3, 4], degree (ofPairs squareRows) 5 v = 2 := by
    intro v hv
    unfold degree
    simp only [List.mem_cons, List.not_mem_nil, or_false] at hv
    rw [show ((Finset.Icc 1 5).filter fun w => (ofPairs squareRows).Adj v w) =
      (if v = 1 then {3, 4} else {1, 2} : Finset Nat) from ?_]
    · rcases hv with rfl | rfl | rfl <;> rfl
    · ext w
      rw [Finset.mem_filter, Finset.mem_Icc]
      rcases hv with rfl | rfl | rfl <;>
      · simp [ofPairs, squareRows]
        omega
  unfold later
  apply Nat.le_trans (show 2 ≤ ({3, 4} : Finset Nat).card from by decide)
  apply Finset.card_le_card
  intro w hw
  rw [Finset.mem_filter, Finset.mem_Icc]
  rw [Finset.mem_insert, Finset.mem_singleton] at hw
  rcases hw with rfl | rfl
  · refine ⟨by omega, ⟨by decide, Or.inl (by decide)⟩, Or.inr ⟨?_, by omega⟩⟩
    rw [hdeg 1 (by simp), hdeg 3 (by simp)]
  · refine ⟨by omega, ⟨by decide, Or.inl (by decide)⟩, Or.inr ⟨?_, by omega⟩⟩
    rw [hdeg 1 (by simp), hdeg 4 (by simp)]

end Sample

/-- The hypotheses of `C101_search_undefined` are met by the four-cycle. -/
example : Sample.square.getMaxCliqueStd Sample.byDegree { useHeuristic := false } = .error .ub :=
  C101_search_undefined Sample.square_usable (fun _ => Sample.byDegree_perm _) rfl rfl rfl
    Sample.square_max (by decide) (by decide) (by decide) ⟨1, by omega, by omega, Sample.square_later⟩

/-- The hypotheses of `C101_fresh_iteration_undefined` are met by the kite. -/
example : Sample.kite.listCliquesStd 2 = .error .ub :=
  C101_fresh_iteration_undefined Sample.kite_usable (by omega) (l := [2, 3])
    ⟨by decide, by decide, by
      intro u hu v hv huv
      simp only [List.mem_cons, List.not_mem_nil, or_false] at hu hv
      rcases hu with rfl | rfl <;> rcases hv with rfl | rfl
      · exact absurd rfl huv
      · exact ⟨by decide, Or.inl (by decide)⟩
      · exact ⟨by decide, Or.inr (by decide)⟩
      · exact absurd rfl huv⟩ rfl (by decide)

/-- `C101_iteration_undefined` and `C101_weighted_undefined` speak about iterations that yield
cliques. -/
example : (Sample.kite.listCliques 3 >>= fun x => .ok x.2) = .ok [[2, 3, 4]] ∧
    (Sample.wkite.listCliques (fun _ => 0) 3 >>= fun x => .ok x.2) =
      .ok [[2, 3], [3, 4], [4, 5]] := by
  decide +kernel

end CM
