import Verif.Props.WeightedMore
import Verif.Model.Double

/-!
# C35, C45, C64, C67 in any arithmetic

The weights of the code are `double`s, whose addition rounds and which include infinities and a
value that compares with nothing.  The theorems here assume nothing at all about
numbers: `R` is any type with a zero, an addition, a subtraction and decidable comparisons,
related to each other by no law.
-/

namespace CM

open Spec Graph NWG

set_option linter.unusedSectionVars false

variable {R : Type} [Zero R] [Add R] [Sub R] [NatCast R] [LT R] [LE R] [DecidableLT R]
  [DecidableLE R] {pg : PyNW R} {n : Nat} {S : SimpleGraph Nat} {ω : Nat → R}

/-- The weights of the vertices in a list, read from the object, are the given ones. -/
theorem summed_stored {H : NWG R} (h : WPyOk pg n S ω H) {l : List Nat}
    (hl : ∀ v ∈ l, 1 ≤ v ∧ v ≤ n) : summed H.w l = summed ω l :=
  AW.summed_congr (fun v hv => h.w v (hl v hv).1 (hl v hv).2)

/-- **C35** in any arithmetic: after any history of calls, with any weights, bounds and flags, a
search returns without touching memory it should not; a list it returns is the placeholder `[0]`
or a clique, and then `get_clique_weight` answers the sum of its weights, which does not
compare as less than the lower bound.  The placeholder does not occur if the lower bound is
greater than `0 + 0`. -/
theorem C35_any_arithmetic (h : WUsable pg n S ω) {ops : List (WOp R)}
    (hl : ∀ op ∈ ops, op.Legal) {srt : List (WData R) → List (WData R)}
    (hsrt : ∀ l, (srt l).Perm l) (junk : Nat → R) (a : PyNW.Args R) :
    ∃ pg1 pg2 r, wruns ops pg = .ok pg1 ∧ pg1.getMaxClique srt junk a = .ok (pg2, r) ∧
      ∀ l, r = .ret l →
        (l = [0] ∧ ¬ (0 : R) + 0 < a.lowerBound) ∨
        (IsCliqueList S n l ∧ ¬ summed ω l < a.lowerBound ∧
          pg2.getCliqueWeight l = .ok (summed ω l)) := by
  obtain ⟨H, hF⟩ := AW.wusable_fresh h
  obtain ⟨pg1, H1, a1, a2, _⟩ := AW.wruns_spec ops hF.pyok hl
  obtain ⟨pg2, H2, b1, b2, _⟩ := AW.wsearch_spec a2 hsrt junk a
  refine ⟨pg1, pg2, _, a1, b1, ?_⟩
  intro l hr
  split at hr
  · cases hr
  · rename_i hlt
    injection hr with hr
    subst hr
    by_cases h0 : H2.curLoc = 0
    · refine Or.inl ⟨wstored_zero b2 h0, ?_⟩
      rw [wstored_zero b2 h0] at hlt
      simp only [summed, List.foldl_cons, List.foldl_nil, b2.w0] at hlt
      exact hlt
    · have hc := wstored_clique b2 h0
      have hs := summed_stored b2 (fun v hv => hc.range v hv)
      rw [hs] at hlt
      refine Or.inr ⟨hc, hlt, ?_⟩
      unfold PyNW.getCliqueWeight
      rw [b2.loaded]
      simp only
      rw [AW.cliqueWeight_spec b2.ok.l, hs]
      intro v hv
      have := hc.range v hv
      have := b2.of.nv
      omega

/-- **C45** in any arithmetic, as far as it does not depend on what sums mean: after any
history, `all_cliques` yields cliques of at least two vertices, and yields no clique twice if
the computed weights of the neighbourhoods can be compared with each other.  (Two `double`s
can, unless one of them is not a number.)  Missing, because false (`C45_refuted_rounding`): that
the weight of each clique reaches the threshold. -/
theorem C45_any_arithmetic_partial (h : WUsable pg n S ω) {ops : List (WOp R)}
    (hl : ∀ op ∈ ops, op.Legal) (junk : Nat → R) (W : R) :
    ∃ pg1 pg2 cs, wruns ops pg = .ok pg1 ∧ pg1.listCliques junk W = .ok (pg2, cs) ∧
      (∀ l ∈ cs, IsCliqueList S n l ∧ 2 ≤ l.length) ∧
      ((∀ u v, (1 ≤ u ∧ u ≤ n) → (1 ≤ v ∧ v ≤ n) →
          summedDegree S n ω u ≤ summedDegree S n ω v ∨
          summedDegree S n ω v < summedDegree S n ω u) → cs.Nodup) := by
  obtain ⟨H, hF⟩ := AW.wusable_fresh h
  obtain ⟨pg1, H1, a1, a2, a3, _⟩ := AW.wruns_spec ops hF.pyok hl
  obtain ⟨fuel, E, H2, E', cs, _, _, _, _, b1, _, _, b2, b3⟩ := AW.wlistCliques_spec a2 junk W
  refine ⟨pg1, _, cs, a1, b1, b2, fun hc => b3 ?_⟩
  intro u v h1 h2 h3 h4
  rw [a3.d, a3.d, AW.spec_summedDegree hF.pyok h1 h2 (hF.d u h2),
    AW.spec_summedDegree hF.pyok h3 h4 (hF.d v h4)]
  exact hc u v ⟨h1, h2⟩ ⟨h3, h4⟩

/-- `get_clique_weight` of any list on a graph. -/
theorem cliqueWeight_all {H : NWG R} (l : Lens H) (c : List Nat) :
    H.cliqueWeight c = .ok (summed H.w (c.filter fun v => decide (v < H.g.nVert))) := by
  unfold cliqueWeight summed
  generalize (0 : R) = a
  induction c generalizing a with
  | nil => rfl
  | cons v c ih =>
    rw [List.foldlM_cons]
    by_cases hv : v < H.g.nVert
    · rw [if_pos hv, rd_wt l hv, ok_bind, ok_bind, ih, List.filter_cons_of_pos (by simpa using hv)]
      rfl
    · rw [if_neg hv, ok_bind, ih, List.filter_cons_of_neg (by simpa using hv)]

/-- **C64** in any arithmetic: after any history `get_clique_weight(l)` adds up, from the left
and without a fault, the given weights of those entries of `l` that are vertices, repetitions
included, and a zero for every entry that is 0, whatever `l` is; it is the sum of the weights of
`l` if all entries are vertices. -/
theorem C64_any_arithmetic (h : WUsable pg n S ω) {ops : List (WOp R)} (hl : ∀ op ∈ ops, op.Legal)
    (l : List Nat) :
    ∃ pg1, wruns ops pg = .ok pg1 ∧
      pg1.getCliqueWeight l =
        .ok (summed (fun v => if v = 0 then 0 else ω v) (l.filter fun v => decide (v ≤ n))) ∧
      ((∀ v ∈ l, 1 ≤ v ∧ v ≤ n) → pg1.getCliqueWeight l = .ok (summed ω l)) := by
  obtain ⟨H, hF⟩ := AW.wusable_fresh h
  obtain ⟨pg1, H1, a1, a2, _⟩ := AW.wruns_spec ops hF.pyok hl
  have key : pg1.getCliqueWeight l =
      .ok (summed (fun v => if v = 0 then 0 else ω v) (l.filter fun v => decide (v ≤ n))) := by
    unfold PyNW.getCliqueWeight
    rw [a2.loaded]
    simp only
    rw [cliqueWeight_all a2.ok.l]
    have hnv := a2.of.nv
    have hf : (l.filter fun v => decide (v < H1.g.nVert)) = l.filter fun v => decide (v ≤ n) := by
      apply List.filter_congr
      intro v _
      simp only [decide_eq_decide]
      omega
    rw [hf]
    congr 1
    apply AW.summed_congr
    intro v hv
    have hv' : v ≤ n := by simpa using (List.mem_filter.1 hv).2
    by_cases h0 : v = 0
    · subst h0; simp [a2.w0]
    · rw [if_neg h0, a2.w v (by omega) hv']
  refine ⟨pg1, a1, key, fun hr => ?_⟩
  rw [key, List.filter_eq_self.2 (fun v hv => by simpa using (hr v hv).2)]
  congr 1
  apply AW.summed_congr
  intro v hv
  rw [if_neg (by have := hr v hv; omega)]

/-! ## C67 -/

variable {M N : Nat}

/-- **C67**: after any history, with a lower bound above the weight of the placeholder `[0]`, a
call of `_get_correspondence` on a weighted graph terminates without a fault, and what it returns
is read off a clique: as many indices into either set as the clique has vertices, all in range,
and each vertex can be recovered from its indices. -/
theorem C67_indices (h : WUsable pg (M * N) S ω) {ops : List (WOp R)} (hl : ∀ op ∈ ops, op.Legal)
    {srt : List (WData R) → List (WData R)} (hsrt : ∀ l, (srt l).Perm l) (junk : Nat → R)
    {a : PyNW.Args R} (ha : (0 : R) + 0 < a.lowerBound) :
    ∃ pg1 pg2 r, wruns ops pg = .ok pg1 ∧ pg1.getCorrespondence srt junk N a = .ok (pg2, r) ∧
      ∀ f s, r = .ret (f, s) → ∃ l, IsCliqueList S (M * N) l ∧
        pg1.getMaxClique srt junk a = .ok (pg2, .ret l) ∧
        f.length = l.length ∧ s.length = l.length ∧
        ∀ k, k < l.length → f.getD k 0 < M ∧ s.getD k 0 < N ∧
          l.getD k 0 = pairId N (f.getD k 0) (s.getD k 0) := by
  obtain ⟨pg1, pg2, r, h1, h2, h3⟩ := C35_any_arithmetic h hl hsrt junk a
  replace h3 : ∀ l, r = .ret l → IsCliqueList S (M * N) l := fun l hr =>
    (h3 l hr).elim (fun x => absurd ha x.2) (fun x => x.1)
  refine ⟨pg1, pg2, _, h1, wgetCorrespondence_eq h2 (fun l hr => (h3 l hr).range), ?_⟩
  intro f s hr
  cases r with
  | raise => cases hr
  | ret l =>
    injection hr with hr
    injection hr with hf hs
    subst hf hs
    have hc := h3 l rfl
    refine ⟨l, hc, h2, by simp [firsts], by simp [seconds], ?_⟩
    intro k hk
    have hr := hc.range l[k] (List.getElem_mem hk)
    have e1 : (firsts N l).getD k 0 = (l[k] - 1) / N := by
      simp [firsts, List.getD_eq_getElem?_getD, hk]
    have e2 : (seconds N l).getD k 0 = (l[k] - 1) % N := by
      simp [seconds, List.getD_eq_getElem?_getD, hk]
    have e3 : l.getD k 0 = l[k] := by simp [List.getD_eq_getElem?_getD, hk]
    rw [e1, e2, e3]
    obtain ⟨a, b, c⟩ := pairId_surj hr.1 hr.2
    exact ⟨a, b, c.symm⟩

/-- **C67** for the iterator: after any history `list(_all_correspondences(M, N, W))` terminates
without a fault; what it yields are, in order, the cliques of `list(all_cliques(W))` read off
as pairs of indices. -/
theorem C67_iterator (h : WUsable pg (M * N) S ω) {ops : List (WOp R)} (hl : ∀ op ∈ ops, op.Legal)
    (junk : Nat → R) (W : R) :
    ∃ pg1 pg2 ls, ∃ cs : List (List Nat × List Nat), wruns ops pg = .ok pg1 ∧
      pg1.listCliques junk W = .ok (pg2, ls) ∧
      pg1.listCorrespondences junk N W = .ok (pg2, cs.map .ret) ∧
      List.Forall₂ (fun (l : List Nat) (c : List Nat × List Nat) => IsCliqueList S (M * N) l ∧
        c.1.length = l.length ∧ c.2.length = l.length ∧ (∀ i ∈ c.1, i < M) ∧ (∀ j ∈ c.2, j < N) ∧
        (c.1.zip c.2).map (fun p => pairId N p.1 p.2) = l) ls cs := by
  obtain ⟨pg1, pg2, ls, h1, h2, h4, _⟩ := C45_any_arithmetic_partial h hl junk W
  refine ⟨pg1, pg2, ls, ls.map fun c => (firsts N c, seconds N c), h1, h2, ?_, ?_⟩
  · rw [wlistCorrespondences_eq (M := M) (N := N) h2 (fun c hc => (h4 c hc).1.range), List.map_map]
    rfl
  · rw [List.forall₂_map_right_iff, List.forall₂_same]
    intro l hl'
    have hc := (h4 l hl').1
    refine ⟨hc, by simp [firsts], by simp [seconds], ?_, ?_, ?_⟩
    · intro i hi
      obtain ⟨v, hv, rfl⟩ := List.mem_map.1 hi
      have hr := hc.range v hv
      exact (pairId_surj hr.1 hr.2).1
    · intro j hj
      obtain ⟨v, hv, rfl⟩ := List.mem_map.1 hj
      have hr := hc.range v hv
      exact (pairId_surj hr.1 hr.2).2.1
    · have hz : (firsts N l).zip (seconds N l) = l.map fun v => ((v - 1) / N, (v - 1) % N) := by
        unfold firsts seconds
        rw [List.zip_map']
      rw [hz, List.map_map]
      conv_rhs => rw [← List.map_id l]
      apply List.map_congr_left
      intro v hv
      have hr := hc.range v hv
      exact (pairId_surj hr.1 hr.2).2.2

/-- The diamond as a graph of pairs of two sets with two elements. -/
example : (Sample.wdiamond.getCorrespondence Sample.byW (fun _ => 0) 2 {} >>= fun x => .ok x.2) =
      .ok (.ret ([0, 0, 1], [0, 1, 0])) ∧
    (Sample.wdiamond.listCorrespondences (fun _ => 0) 2 3 >>= fun x => .ok x.2) =
      .ok [.ret ([0, 0, 1], [0, 1, 0]), .ret ([0, 0, 1], [0, 1, 1])] := by decide +kernel

/-! ## What rounding changes -/

/-- The numbers a Python program writes as `0.1`, `0.2`, ... -/
def Sample.tenths (l : List Nat) : List Dbl := l.map fun k => Dbl.round (k / 10)

/-- A graph with four vertices whose weights are written `0.9`, `0.6`, `0.5`, `0.7`. -/
def Sample.wdec : PyNW Dbl :=
  Sample.get PyNW.new
    (PyNW.fromEdgelist true 64 [(1, 4), (2, 3), (2, 4), (3, 4)] 4 (Sample.tenths [9, 6, 5, 7]))

theorem Sample.wdec_usable : WUsable Sample.wdec 4 (ofPairs [(1, 4), (2, 3), (2, 4), (3, 4)])
    (nth (Sample.tenths [9, 6, 5, 7])) :=
  ⟨.edgelist (argLR := true) (cap := 64) (by decide) (by decide) (by decide +kernel),
    Sample.wkept (by decide +kernel), 1, 4, by decide, Or.inl (by decide)⟩

/-- The theorems above apply to it: a search, an enumeration, a weight. -/
example : (Sample.wdec.getMaxClique List.reverse (fun _ => .nan)
      { lowerBound := 1, upperBound := .inf false } >>= fun x => .ok x.2) = .ok (.ret [2, 3, 4]) ∧
    (Sample.wdec.listCliques (fun _ => .nan) (Dbl.round (3 / 2)) >>= fun x => .ok x.2) =
      .ok [[2, 3, 4]] ∧
    Sample.wdec.getCliqueWeight [1, 2, 3] = .ok (Dbl.round 2) ∧
    (0 : Dbl) + 0 < 1 := by decide +kernel

/-- **C45** is false of `double`s: rounding can make the iterator count a clique as heavier than
`get_clique_weight` says.  `all_cliques(1.3)` yields `[2, 4]`, whose weight is
1.2999999999999998. -/
theorem C45_refuted_rounding :
    ∃ (pg : PyNW Dbl) (n : Nat) (S : SimpleGraph Nat) (ω : Nat → Dbl), WUsable pg n S ω ∧
    ∃ cs l w, (pg.listCliques (fun _ => 0) (Dbl.round (13 / 10)) >>= fun x => .ok x.2) = .ok cs ∧
      l ∈ cs ∧ pg.getCliqueWeight l = .ok w ∧ w < Dbl.round (13 / 10) :=
  ⟨Sample.wdec, 4, _, _, Sample.wdec_usable, [[2, 3, 4], [2, 4]], [2, 4],
    Dbl.fin (5854679515581644 / 2 ^ 52), by decide +kernel, by decide, by decide +kernel,
    by decide +kernel⟩

/-- **C46** is false of `double`s, for cliques that do not begin with vertex 1 and have not
reached the threshold before their last vertex: `all_cliques(0.8)` does not yield the clique
`[3, 4]`, whose weights are written 0.3 and 0.5 and whose weight is 0.8 according to
`get_clique_weight`. -/
theorem C46_refuted_rounding :
    ∃ (pg : PyNW Dbl) (n : Nat) (S : SimpleGraph Nat) (ω : Nat → Dbl), WUsable pg n S ω ∧
    ∃ cs u v, (pg.listCliques (fun _ => 0) (Dbl.round (8 / 10)) >>= fun x => .ok x.2) = .ok cs ∧
      u ≠ 1 ∧ u < v ∧ IsCliqueList S n [u, v] ∧
      pg.getCliqueWeight [u, v] = .ok (Dbl.round (8 / 10)) ∧ [u, v] ∉ cs :=
  ⟨Sample.get PyNW.new (PyNW.fromEdgelist true 64
      [(1, 2), (1, 3), (1, 4), (1, 5), (3, 4), (3, 5), (4, 5)] 5 (Sample.tenths [2, 2, 3, 5, 2])), 5,
    ofPairs [(1, 2), (1, 3), (1, 4), (1, 5), (3, 4), (3, 5), (4, 5)],
    nth (Sample.tenths [2, 2, 3, 5, 2]),
    ⟨.edgelist (argLR := true) (cap := 64) (by decide) (by decide) (by decide +kernel),
      Sample.wkept (by decide +kernel), 1, 2, by decide, Or.inl (by decide)⟩,
    [[1, 3, 4], [3, 4, 5], [1, 4, 5]], 3, 4, by decide +kernel, by decide, by decide,
    Sample.pair_clique (by decide) (by decide) (by decide) (by decide), by decide +kernel,
    by decide⟩

/-- **C36** is false of `double`s: an exact search returns `[1, 2]`, whose weight is 0.7, although
that of the clique `[2, 3, 5]` is 0.7000000000000001. -/
theorem C36_refuted_rounding :
    ∃ (pg : PyNW Dbl) (n : Nat) (S : SimpleGraph Nat) (ω : Nat → Dbl), WUsable pg n S ω ∧
    ∃ l l' w w', (∀ srt, (pg.getMaxClique srt (fun _ => 0)
        { lowerBound := 0, upperBound := 100, useHeuristic := false } >>= fun x => .ok x.2) =
          .ok (.ret l)) ∧ IsCliqueList S n l' ∧
      pg.getCliqueWeight l = .ok w ∧ pg.getCliqueWeight l' = .ok w' ∧ w < w' := by
  refine ⟨Sample.get PyNW.new (PyNW.fromEdgelist true 64
      [(1, 2), (1, 4), (2, 3), (2, 5), (3, 5), (4, 5)] 5 (Sample.tenths [5, 2, 1, 2, 4])), 5,
    ofPairs [(1, 2), (1, 4), (2, 3), (2, 5), (3, 5), (4, 5)],
    nth (Sample.tenths [5, 2, 1, 2, 4]),
    ⟨.edgelist (argLR := true) (cap := 64) (by decide) (by decide) (by decide +kernel),
      Sample.wkept (by decide +kernel), 1, 2, by decide, Or.inl (by decide)⟩,
    [1, 2], [2, 3, 5], Dbl.fin (6305039478318694 / 2 ^ 53), Dbl.fin (6305039478318695 / 2 ^ 53),
    ?_, ?_, by decide +kernel, by decide +kernel, by decide +kernel⟩
  · intro srt
    rw [noHeuristic srt _ rfl]
    decide +kernel
  · refine ⟨by decide, by decide, ?_⟩
    intro x hx y hy hxy
    simp only [Set.mem_ofPred_eq, List.mem_cons, List.not_mem_nil, or_false] at hx hy
    refine ⟨hxy, ?_⟩
    rcases hx with rfl | rfl | rfl <;> rcases hy with rfl | rfl | rfl <;>
      first
        | exact absurd rfl hxy
        | exact Or.inl (by decide)
        | exact Or.inr (by decide)

end CM
