import Verif.Lemmas.NWRat
import Verif.Lemmas.AWApi
import Verif.Props.Loading

/-!
# C34-C36: weighted graphs

`WUsable pg n S ω` says that `pg` was returned by a loader of `NWGraph` for the graph `S` on
`1 .. n` with weight `ω v` on vertex `v`, that `S` has an edge and that loading left the buffer
in place.  `srt` is the sort used by the heuristic, assumed only to permute its input, and
`junk` is the content of storage the search reserves and does not initialise; both are
arbitrary.

A theorem stated for a type `R` holds whatever the weights are and however they are added and
compared: no law of arithmetic is assumed, so that it covers floating-point numbers with all their
rounding and special values.  In the other theorems weights are rational numbers, of any sign
unless a theorem says otherwise.
-/

namespace CM

open Spec Graph NWG

set_option linter.unusedSectionVars false

variable {pg : PyNW Rat} {n : Nat} {S : SimpleGraph Nat} {ω : Nat → Rat}

/-! ## Sample objects -/

namespace Sample

/-- `NWGraph.from_edgelist(rows, 5, [2, 1/2, 3, 1, 10])`, with room in the buffer. -/
def wkite : PyNW Rat := get (PyNW.new (R := Rat))
      (PyNW.fromEdgelist true 64 rows 5 [2, 1/2, 3, 1, 10])

theorem wkite_eq : PyNW.fromEdgelist true 64 rows 5 [2, 1/2, 3, 1, 10] = .ok wkite := by
  decide +kernel

/-- Loading left the buffer in place. -/
theorem wkept {R : Type} {pg : PyNW R} (h : (pg.G.map fun H => H.g.dangling) = some false) :
    ∀ H, pg.G = some H → H.g.dangling = false := by
  intro H hH
  rw [hH] at h
  simpa using h

theorem wkite_usable : WUsable wkite 5 (ofPairs rows) (nth ([2, 1/2, 3, 1, 10] : List Rat)) :=
  ⟨.edgelist (by decide) (by decide) wkite_eq, wkept (by decide +kernel), 1, 2, by decide,
    Or.inl (by decide)⟩

theorem wkite_nonneg : ∀ v, 1 ≤ v → v ≤ 5 → 0 ≤ nth ([2, 1/2, 3, 1, 10] : List Rat) v := by decide +kernel

end Sample

/-! ## C34 -/

section

variable {R : Type} [Zero R] [Add R] [Sub R] [NatCast R] [LT R] [LE R] [DecidableLT R]
  [DecidableLE R] {pg : PyNW R} {n : Nat} {S : SimpleGraph Nat} {ω : Nat → R}

/-- What the accessors of weights answer on an object that stores `S` and `ω`. -/
theorem weights_spec {H : NWG R} (hg : pg.G = some H) (hn : pg.nvert = n) (hs : Str H.g)
    (hO : Of H.g n S) (hl : Lens H) (hw : ∀ v, 1 ≤ v → v ≤ n → H.w v = ω v) :
    (n ≠ 0 → pg.getAllWeights = .ok ((List.range n).map fun i => ω (i + 1))) ∧
    ∀ v, 1 ≤ v → v ≤ n → ∃ nb, pg.getVertexData v = .ok (ω v, nb) ∧ nb.Pairwise (· < ·) ∧
      ∀ u, u ∈ nb ↔ S.Adj v u := by
  have hnv := hO.nv
  constructor
  · intro h0
    unfold PyNW.getAllWeights PyNW.checkLoaded
    rw [hn, if_neg h0, hg]
    simp only
    have h1 : H.allWeights = .ok ((List.range (n + 1)).map H.w) := by
      unfold NWG.allWeights
      rw [hnv]
      obtain ⟨s', h1, h2⟩ := forRange_rule (lo := 0) (hi := n + 1) (s := ([] : List R))
        (body := fun i acc => do
          let w ← rd H.wt i
          .ok (acc ++ [w]))
        (fun i (s : List R) => s = (List.range i).map H.w) (by omega) rfl
        (by
          intro k s _ hk hs
          rw [rd_wt hl (by omega), ok_bind]
          refine ⟨_, rfl, ?_⟩
          rw [hs, List.range_succ, List.map_append]
          rfl)
      rw [h1, h2]
    rw [h1, ok_bind]
    congr 1
    rw [List.range_succ_eq_map, List.map_cons, List.drop_succ_cons, List.drop_zero, List.map_map]
    apply List.map_congr_left
    intro i hi
    rw [List.mem_range] at hi
    exact hw (i + 1) (by omega) (by omega)
  · intro v h1 h2
    obtain ⟨nb, a1, a2, a3⟩ := vertexData_spec hs hO h2
    refine ⟨nb, ?_, a2, a3⟩
    unfold PyNW.getVertexData NWG.vertexData
    rw [hn, if_neg (by omega), hg]
    simp only
    rw [a1, ok_bind, rd_wt hl (by omega), ok_bind, hw v h1 h2]

theorem nth_range {wts : List R} :
    ((List.range wts.length).map fun i => nth wts (i + 1)) = wts := by
  apply List.ext_getElem
  · simp
  · intro i h1 h2
    simp [nth, h2]

/-- **C34** for `from_edgelist`: it succeeds exactly if all endpoints are in `1 .. n` and
there are `n` weights (otherwise it raises); then the weights are those supplied, in order. -/
theorem C34_from_edgelist (argLR : Bool) (cap : Nat) {rows : List (Nat × Nat)} {wts : List R}
    (hn : n < 2 ^ 31) (hlen : rows.length < 2 ^ 56) :
    ((∃ pg : PyNW R, PyNW.fromEdgelist argLR cap rows n wts = .ok pg) ↔
      (∀ r ∈ rows, (1 ≤ r.1 ∧ r.1 ≤ n) ∧ (1 ≤ r.2 ∧ r.2 ≤ n)) ∧ wts.length = n) ∧
    (¬ ((∀ r ∈ rows, (1 ≤ r.1 ∧ r.1 ≤ n) ∧ (1 ≤ r.2 ∧ r.2 ≤ n)) ∧ wts.length = n) →
      PyNW.fromEdgelist argLR cap rows n wts = .error .throw) ∧
    ∀ pg, PyNW.fromEdgelist argLR cap rows n wts = .ok pg → pg.nvert = n ∧
      (n ≠ 0 → pg.getAllWeights = .ok wts) ∧
      ∀ v, 1 ≤ v → v ≤ n → ∃ nb, pg.getVertexData v = .ok (wts.getD (v - 1) 0, nb) ∧
        nb.Pairwise (· < ·) ∧ ∀ u, u ∈ nb ↔ u ≠ v ∧ ((u, v) ∈ rows ∨ (v, u) ∈ rows) := by
  obtain ⟨h1, h2⟩ := AW.wfromEdgelist_spec argLR cap (rows := rows) (wts := wts) hn hlen
  refine ⟨⟨?_, ?_⟩, h2, ?_⟩
  · rintro ⟨pg, h⟩
    by_contra hv
    rw [h2 hv] at h; cases h
  · intro hv
    obtain ⟨pg, H, h3, _⟩ := h1 hv
    exact ⟨pg, h3⟩
  · intro pg h
    by_cases hv : ValidRows rows n ∧ wts.length = n
    · obtain ⟨pg', H, h3, h4⟩ := h1 hv
      rw [h] at h3; cases h3
      obtain ⟨b1, b2⟩ := weights_spec (pg := pg) (by rw [h4.eq]) (by rw [h4.eq]) h4.str h4.of h4.l
        h4.w
      refine ⟨by rw [h4.eq], fun h0 => ?_, fun v h5 h6 => ?_⟩
      · rw [b1 h0, ← hv.2, nth_range]
      · obtain ⟨nb, c1, c2, c3⟩ := b2 v h5 h6
        refine ⟨nb, c1, c2, fun u => ?_⟩
        rw [c3]
        show v ≠ u ∧ ((v, u) ∈ rows ∨ (u, v) ∈ rows) ↔ _
        rw [or_comm]
        exact ⟨fun h => ⟨h.1.symm, h.2⟩, fun h => ⟨h.1.symm, h.2⟩⟩
    · rw [h2 hv] at h; cases h

/-- **C34** for `from_matrix`. -/
theorem C34_from_matrix (argLR : Bool) (cap : Nat) {r c : Nat} (A : Nat → Nat → Bool)
    {wts : List R} (hr : r < 2 ^ 28) :
    ((∃ pg, PyNW.fromMatrix argLR cap r c A wts = .ok pg) ↔ r = c ∧ wts.length = r) ∧
    (¬ (r = c ∧ wts.length = r) → PyNW.fromMatrix argLR cap r c A wts = .error .throw) ∧
    ∀ pg, PyNW.fromMatrix argLR cap r c A wts = .ok pg → pg.nvert = r ∧
      (r ≠ 0 → pg.getAllWeights = .ok wts) ∧
      ∀ v, 1 ≤ v → v ≤ r → ∃ nb, pg.getVertexData v = .ok (wts.getD (v - 1) 0, nb) ∧
        nb.Pairwise (· < ·) ∧ ∀ u, u ∈ nb ↔ u ≠ v ∧ (1 ≤ u ∧ u ≤ r) ∧
          (A (u - 1) (v - 1) = true ∨ A (v - 1) (u - 1) = true) := by
  have hfail : ¬ (r = c ∧ wts.length = r) →
      PyNW.fromMatrix argLR cap r c A wts = .error .throw := by
    intro hv
    by_cases hrc : r = c
    · subst hrc
      exact (AW.wfromMatrix_spec argLR cap (A := A) (wts := wts) hr).2 (fun h => hv ⟨rfl, h⟩)
    · unfold PyNW.fromMatrix
      rw [if_pos hrc]
  refine ⟨⟨?_, ?_⟩, hfail, ?_⟩
  · rintro ⟨pg, h⟩
    by_contra hv
    rw [hfail hv] at h; cases h
  · rintro ⟨rfl, hv⟩
    obtain ⟨pg, H, h3, _⟩ := (AW.wfromMatrix_spec argLR cap (A := A) (wts := wts) hr).1 hv
    exact ⟨pg, h3⟩
  · intro pg h
    by_cases hv : r = c ∧ wts.length = r
    · obtain ⟨rfl, hw⟩ := hv
      obtain ⟨pg', H, h3, h4⟩ := (AW.wfromMatrix_spec argLR cap (A := A) (wts := wts) hr).1 hw
      rw [h] at h3; cases h3
      obtain ⟨b1, b2⟩ := weights_spec (pg := pg) (by rw [h4.eq]) (by rw [h4.eq]) h4.str h4.of h4.l
        h4.w
      refine ⟨by rw [h4.eq], fun h0 => ?_, fun v h5 h6 => ?_⟩
      · rw [b1 h0, ← hw, nth_range]
      · obtain ⟨nb, c1, c2, c3⟩ := b2 v h5 h6
        refine ⟨nb, c1, c2, fun u => ?_⟩
        rw [c3]
        show v ≠ u ∧ (1 ≤ v ∧ v ≤ r) ∧ (1 ≤ u ∧ u ≤ r) ∧
          (A (v - 1) (u - 1) = true ∨ A (u - 1) (v - 1) = true) ↔ _
        rw [or_comm]
        exact ⟨fun h => ⟨h.1.symm, h.2.2.1, h.2.2.2⟩,
          fun h => ⟨h.1.symm, ⟨h5, h6⟩, h.2.1, h.2.2⟩⟩
    · rw [hfail hv] at h; cases h

/-- **C34**: no call changes the weights or the graph. -/
theorem C34_kept (h : WUsable pg n S ω) {ops : List (WOp R)} (hl : ∀ op ∈ ops, op.Legal) :
    ∃ pg', wruns ops pg = .ok pg' ∧
      pg'.getAllWeights = .ok ((List.range n).map fun i => ω (i + 1)) ∧
      ∀ v, 1 ≤ v → v ≤ n → ∃ nb, pg'.getVertexData v = .ok (ω v, nb) ∧ nb.Pairwise (· < ·) ∧
        ∀ u, u ∈ nb ↔ S.Adj v u := by
  obtain ⟨H, hF⟩ := AW.wusable_fresh h
  obtain ⟨pg1, H1, a1, a2, _⟩ := AW.wruns_spec ops hF.pyok hl
  obtain ⟨b1, b2⟩ := weights_spec a2.g a2.nv a2.ok.ok.wf.str a2.of a2.ok.l a2.w
  exact ⟨pg1, a1, b1 a2.pos, b2⟩

/-- **C34** fails for `from_adjlist`, on every input it does not refuse: the constructor reads
one weight more than there are, so that the call has undefined behaviour.  (What it refuses
is what `Graph.from_adjlist` refuses, and a wrong number of weights.) -/
theorem C34_refuted_adjlist (argLR : Bool) (cap : Nat) {m : Nat} {sets : List (List Nat)}
    {wts : List R} (hn : n < 2 ^ 31) (hlen : (sets.map List.length).sum < 2 ^ 57) :
    PyNW.fromAdjList argLR cap n m sets wts =
      if sets.length = n + 1 ∧ sets.getD 0 [] = [] ∧
        (∀ i, i ≤ n → ∀ j ∈ sets.getD i [], (1 ≤ j ∧ j ≤ n) ∧ j ≠ i ∧ i ∈ sets.getD j []) ∧
        wts.length = n ∧ (sets.map List.length).sum / 2 = m
      then .error .ub else .error .throw := by
  obtain ⟨h1, h2⟩ := AW.wfromAdjList_spec argLR cap (m := m) (sets := sets) (wts := wts) hn hlen
  split
  · rename_i h
    exact h1 ⟨⟨h.1, h.2.1, h.2.2.1⟩, h.2.2.2⟩
  · rename_i h
    exact h2 (fun h' => h ⟨h'.1.len, h'.1.zero, h'.1.entry, h'.2⟩)

end

/-- The triangle with a tail: the input of the project's own test. -/
example : PyNW.fromAdjList true 64 5 6 [[], [2, 3, 4, 5], [1, 4], [1, 5], [1, 2], [1, 3]]
    ([27/10, 27/10, 27/10, 27/10, 27/10] : List Rat) = .error .ub := by decide +kernel

example : Sample.wkite.getAllWeights = .ok [2, 1/2, 3, 1, 10] ∧
    (∃ nb, Sample.wkite.getVertexData 4 = .ok (1, nb) ∧ nb = [1, 2, 3, 5]) :=
  ⟨by decide +kernel, _, by decide +kernel, rfl⟩

/-! ## C35 -/

/-- **C35**: after any history of calls, with any weights, bounds and flags, a call with a
positive lower bound returns without touching memory it should not, and if it returns a list,
that list is a clique (increasing, within `1 .. n`, pairwise adjacent) whose total weight is
not below the lower bound and is what `get_clique_weight` answers for it. -/
theorem C35_returned_is_clique (h : WUsable pg n S ω) {ops : List (WOp Rat)}
    (hl : ∀ op ∈ ops, op.Legal) {srt : List (WData Rat) → List (WData Rat)}
    (hsrt : ∀ l, (srt l).Perm l) (junk : Nat → Rat) {a : PyNW.Args Rat} (ha : 0 < a.lowerBound) :
    ∃ pg1 pg2 r, wruns ops pg = .ok pg1 ∧ pg1.getMaxClique srt junk a = .ok (pg2, r) ∧
      ∀ l, r = .ret l → IsCliqueList S n l ∧ a.lowerBound ≤ weight ω l ∧
        pg2.getCliqueWeight l = .ok (weight ω l) := by
  obtain ⟨H, hF⟩ := h.fresh
  obtain ⟨pg1, H1, a1, a2, _⟩ := wruns_spec ops hF.pyok hl
  obtain ⟨pg2, H2, b1, b2, _⟩ := wsearch_spec a2 hsrt junk a
  refine ⟨pg1, pg2, _, a1, b1, ?_⟩
  intro l hr
  split at hr
  · cases hr
  · rename_i hlt
    injection hr with hr
    subst hr
    have h0 : H2.curLoc ≠ 0 := by
      intro h0
      rw [wstored_zero b2 h0] at hlt
      simp only [weight, List.map_cons, List.map_nil, List.sum_cons, List.sum_nil, b2.w0] at hlt
      exact hlt (by simpa using ha)
    have hc := wstored_clique b2 h0
    refine ⟨hc, ?_, ?_⟩
    · rw [← b2.weight hc]; exact not_lt.1 hlt
    · unfold PyNW.getCliqueWeight
      rw [b2.loaded]
      simp only
      rw [cliqueWeight_spec b2.ok.l, b2.weight hc]
      intro v hv
      have := hc.range v hv
      have := b2.of.nv
      omega

/-- **C35** for a lower bound that is not positive: the result may also be the placeholder
vertex `0`. -/
theorem C35_any_lower_bound (h : WUsable pg n S ω) {ops : List (WOp Rat)}
    (hl : ∀ op ∈ ops, op.Legal) {srt : List (WData Rat) → List (WData Rat)}
    (hsrt : ∀ l, (srt l).Perm l) (junk : Nat → Rat) (a : PyNW.Args Rat) :
    ∃ pg1 pg2 r, wruns ops pg = .ok pg1 ∧ pg1.getMaxClique srt junk a = .ok (pg2, r) ∧
      ∀ l, r = .ret l → l = [0] ∨ (IsCliqueList S n l ∧ a.lowerBound ≤ weight ω l) := by
  obtain ⟨H, hF⟩ := h.fresh
  obtain ⟨pg1, H1, a1, a2, _⟩ := wruns_spec ops hF.pyok hl
  obtain ⟨pg2, H2, b1, b2, _⟩ := wsearch_spec a2 hsrt junk a
  refine ⟨pg1, pg2, _, a1, b1, ?_⟩
  intro l hr
  split at hr
  · cases hr
  · rename_i hlt
    injection hr with hr
    subst hr
    by_cases h0 : H2.curLoc = 0
    · exact Or.inl (wstored_zero b2 h0)
    · have hc := wstored_clique b2 h0
      exact Or.inr ⟨hc, by rw [← b2.weight hc]; exact not_lt.1 hlt⟩

/-- Insertion by decreasing weighted degree, as the heuristic asks for (nw_heuristic.cpp). -/
def Sample.insertW (x : WData Rat) : List (WData Rat) → List (WData Rat)
  | [] => [x]
  | y :: ys => if x.degree ≥ y.degree then x :: y :: ys else y :: insertW x ys

/-- A sort by decreasing weighted degree. -/
def Sample.byW (l : List (WData Rat)) : List (WData Rat) := l.foldr insertW []

theorem Sample.insertW_perm (x : WData Rat) (l : List (WData Rat)) : (insertW x l).Perm (x :: l) := by
  induction l with
  | nil => exact List.Perm.refl _
  | cons y ys ih =>
    unfold insertW
    split
    · exact List.Perm.refl _
    · exact (ih.cons y).trans (List.Perm.swap x y ys)

theorem Sample.byW_perm (l : List (WData Rat)) : (byW l).Perm l := by
  induction l with
  | nil => exact List.Perm.refl _
  | cons x xs ih =>
    show (insertW x (byW xs)).Perm _
    exact (insertW_perm x _).trans (ih.cons x)

/-- A history of searches and a reset. -/
def Sample.whistory : List (WOp Rat) :=
  [.search byW (fun i => i - 3) { upperBound := 2 }, .reset,
    .search List.reverse (fun _ => 0) { lowerBound := 9, useDfs := false }]

example : ∀ op ∈ Sample.whistory, op.Legal := by
  intro op hop
  simp only [Sample.whistory, List.mem_cons, List.not_mem_nil, or_false] at hop
  rcases hop with rfl | rfl | rfl
  · exact fun _ => Sample.byW_perm _
  · trivial
  · exact fun l => List.reverse_perm l

example : (wruns Sample.whistory Sample.wkite >>= fun pg =>
    pg.getMaxClique Sample.byW (fun _ => 0) {} >>= fun x => .ok x.2) = .ok (.ret [1, 2, 3, 4]) := by
  decide +kernel

/-! ## C36 -/

/-- A complete search in a state whose bounds are intact. -/
theorem wexact {H : NWG Rat} (h : WPyOk pg n S ω H) (hnn : ∀ v, 1 ≤ v → v ≤ n → 0 ≤ ω v)
    (hm : McsOk H) (hlim : ∀ l, IsCliqueList S n l → weight ω l ≤ H.limit)
    (hc : 0 ≤ H.curMax) {srt : List (WData Rat) → List (WData Rat)}
    (hsrt : ∀ l, (srt l).Perm l) (junk : Nat → Rat) {a : PyNW.Args Rat} (hd : a.useDfs = true)
    (hu : ∀ l, IsCliqueList S n l → weight ω l ≤ a.upperBound)
    (hex : ∃ l, IsCliqueList S n l ∧ 2 ≤ l.length ∧ max a.lowerBound H.curMax < weight ω l) :
    ∃ pg' l, pg.getMaxClique srt junk a = .ok (pg', .ret l) ∧ IsCliqueList S n l ∧
      a.lowerBound < weight ω l ∧
      ∀ l', IsCliqueList S n l' → 2 ≤ l'.length → weight ω l' ≤ weight ω l := by
  obtain ⟨pg', H', b1, b2, b3, b4, _, _, _, b5, b6⟩ := wsearch_spec h hsrt junk a
  obtain ⟨_, hb⟩ := b6 (h.nonneg hnn) hm
  have hbest : ∀ l, IsCliqueList S n l → 2 ≤ l.length → weight ω l ≤ H'.curMax := by
    intro l hl h2
    rcases wbest_spec b2.of b2.ok.ok.wf (hb hd) hl h2 with h3 | h3
    · rwa [b2.weight hl] at h3
    · rw [b4] at h3
      exact le_trans (le_min (hu l hl) (hlim l hl)) h3
  obtain ⟨l0, e1, e2, e3⟩ := hex
  have h0 := lt_of_lt_of_le e3 (hbest l0 e1 e2)
  have hrec : weight H'.w (wstored H') = H'.curMax := by
    rcases b5 with h3 | h3
    · rw [h3.1] at h0; exact absurd h0 (lt_irrefl _)
    · exact h3
  have hloc : H'.curLoc ≠ 0 := by
    intro hz
    rw [wstored_zero b2 hz] at hrec
    simp only [weight, List.map_cons, List.map_nil, List.sum_cons, List.sum_nil, b2.w0,
      add_zero] at hrec
    rw [← hrec] at h0
    exact absurd (le_trans hc (le_max_right _ _)) (not_le.2 h0)
  have hcl := wstored_clique b2 hloc
  rw [b2.weight hcl] at hrec
  rw [b2.weight hcl, hrec, if_neg (not_lt.2 (le_of_lt (lt_of_le_of_lt (le_max_left _ _) h0)))] at b1
  refine ⟨pg', _, b1, hcl, ?_, ?_⟩
  · rw [hrec]; exact lt_of_le_of_lt (le_max_left _ _) h0
  · intro l' hl' h2
    rw [hrec]; exact hbest l' hl' h2

/-- A clique that is not a vertex without neighbours weighs no more than some clique with two
or more vertices. -/
theorem isolated_only (hedge : ∃ u v, S.Adj u v)
    (hrng : ∀ u v, S.Adj u v → (1 ≤ u ∧ u ≤ n) ∧ (1 ≤ v ∧ v ≤ n))
    (hnn : ∀ v, 1 ≤ v → v ≤ n → 0 ≤ ω v) {l : List Nat} (hl : IsCliqueList S n l)
    (hiso : ∀ v, l = [v] → ∃ u, S.Adj v u) :
    ∃ l', IsCliqueList S n l' ∧ 2 ≤ l'.length ∧ weight ω l ≤ weight ω l' := by
  have hpair : ∀ u v, S.Adj u v → ∃ l', IsCliqueList S n l' ∧ 2 ≤ l'.length ∧
      weight ω l' = ω u + ω v := by
    have hlt : ∀ u v, u < v → S.Adj u v → ∃ l', IsCliqueList S n l' ∧ 2 ≤ l'.length ∧
        weight ω l' = ω u + ω v := by
      intro u v huv ha
      have hr := hrng u v ha
      refine ⟨[u, v], ⟨by simpa using huv, ?_, ?_⟩, by simp, by simp [weight]⟩
      · intro x hx
        rcases List.mem_pair.1 hx with rfl | rfl
        · exact hr.1
        · exact hr.2
      · intro x hx y hy hxy
        simp only [Set.mem_ofPred_eq, List.mem_pair] at hx hy
        rcases hx with rfl | rfl <;> rcases hy with rfl | rfl
        · exact absurd rfl hxy
        · exact ha
        · exact ha.symm
        · exact absurd rfl hxy
    intro u v ha
    rcases Nat.lt_or_gt_of_ne ha.ne with h | h
    · exact hlt u v h ha
    · obtain ⟨l', h1, h2, h3⟩ := hlt v u h ha.symm
      exact ⟨l', h1, h2, by rw [h3, add_comm]⟩
  match l, hl, hiso with
  | [], _, _ =>
    obtain ⟨u, v, ha⟩ := hedge
    obtain ⟨l', h1, h2, h3⟩ := hpair u v ha
    have hr := hrng u v ha
    refine ⟨l', h1, h2, ?_⟩
    rw [h3]
    simpa [weight] using add_nonneg (hnn u hr.1.1 hr.1.2) (hnn v hr.2.1 hr.2.2)
  | [v], _, hiso =>
    obtain ⟨u, ha⟩ := hiso v rfl
    obtain ⟨l', h1, h2, h3⟩ := hpair v u ha
    have hr := hrng v u ha
    refine ⟨l', h1, h2, ?_⟩
    rw [h3]
    simpa [weight] using hnn u hr.2.1 hr.2.2
  | x :: y :: t, hl, _ => exact ⟨x :: y :: t, hl, by simp, le_refl _⟩

/-- A clique weighs no more than all vertices together. -/
theorem weight_le (hnn : ∀ v, 1 ≤ v → v ≤ n → 0 ≤ ω v) {l : List Nat}
    (hl : IsCliqueList S n l) : weight ω l ≤ weight ω ((List.range n).map (· + 1)) := by
  unfold weight
  rw [sum_eq (hl.increasing.imp (fun h => Nat.ne_of_lt h)), sum_eq (by
    rw [List.nodup_map_iff (fun a b h => by omega)]; exact List.nodup_range)]
  apply Finset.sum_le_sum_of_subset_of_nonneg
  · intro v hv
    rw [List.mem_toFinset] at hv ⊢
    have := hl.range v hv
    rw [List.mem_map]
    exact ⟨v - 1, by rw [List.mem_range]; omega, by omega⟩
  · intro v hv _
    rw [List.mem_toFinset, List.mem_map] at hv
    obtain ⟨i, hi, rfl⟩ := hv
    rw [List.mem_range] at hi
    exact hnn _ (by omega) (by omega)

/-- **C36**, what holds of it: on a freshly loaded graph with nonnegative weights an exact
search, with or without the heuristic, returns a clique which is heavier than the lower bound
and at least as heavy as every clique that is not a vertex without neighbours, if
some clique of two or more vertices is heavier than the lower bound and none is heavier than
the upper bound.  Missing from the claim: vertices without neighbours
(`C36_refuted_isolated`), graphs whose cliques weigh at most 1 (`C36_refuted_light`) and
graphs with cliques heavier than 65535 (`C36_refuted_heavy`). -/
theorem C36_exact_partial (h : WUsable pg n S ω) (hnn : ∀ v, 1 ≤ v → v ≤ n → 0 ≤ ω v)
    {srt : List (WData Rat) → List (WData Rat)} (hsrt : ∀ l, (srt l).Perm l) (junk : Nat → Rat)
    {a : PyNW.Args Rat} (hd : a.useDfs = true) (ha : 0 ≤ a.lowerBound)
    (hu : ∀ l, IsCliqueList S n l → weight ω l ≤ a.upperBound)
    (hex : ∃ l, IsCliqueList S n l ∧ 2 ≤ l.length ∧ a.lowerBound < weight ω l) :
    ∃ pg' l, pg.getMaxClique srt junk a = .ok (pg', .ret l) ∧ IsCliqueList S n l ∧
      a.lowerBound < weight ω l ∧
      ∀ l', IsCliqueList S n l' → (∀ v, l' = [v] → ∃ u, S.Adj v u) →
        weight ω l' ≤ weight ω l := by
  obtain ⟨H, hF⟩ := h.fresh
  have hnn' := hF.pyok.nonneg hnn
  obtain ⟨pg', l, h1, h2, h3, h4⟩ := wexact hF.pyok hnn
    (hF.bounds.mcsOk hF.pyok.ok.ok.wf.str hnn')
    (fun l hl => by
      rw [← hF.pyok.weight hl]
      exact wbounds_spec hF.pyok.of hF.pyok.ok.ok.wf hF.bounds hnn' hl)
    (by rw [hF.cm]) hsrt junk hd hu (by
      rw [hF.cm, max_eq_left ha]; exact hex)
  refine ⟨pg', l, h1, h2, h3, ?_⟩
  intro l' hl' hiso
  obtain ⟨l2, e1, e2, e3⟩ := isolated_only h.edge hF.pyok.of.rng hnn hl' hiso
  exact le_trans e3 (h4 l2 e1 e2)

/-- **C36** for graphs without isolated vertices: the result has maximum weight among all
cliques. -/
theorem C36_no_isolated (h : WUsable pg n S ω) (hnn : ∀ v, 1 ≤ v → v ≤ n → 0 ≤ ω v)
    (hiso : ∀ v, 1 ≤ v → v ≤ n → ∃ u, S.Adj v u)
    {srt : List (WData Rat) → List (WData Rat)} (hsrt : ∀ l, (srt l).Perm l) (junk : Nat → Rat)
    {a : PyNW.Args Rat} (hd : a.useDfs = true) (ha : 0 ≤ a.lowerBound)
    (hu : ∀ l, IsCliqueList S n l → weight ω l ≤ a.upperBound)
    (hex : ∃ l, IsCliqueList S n l ∧ a.lowerBound < weight ω l) :
    ∃ pg' l, pg.getMaxClique srt junk a = .ok (pg', .ret l) ∧ IsCliqueList S n l ∧
      ∀ l', IsCliqueList S n l' → weight ω l' ≤ weight ω l := by
  obtain ⟨H, hF⟩ := h.fresh
  have key : ∀ l', IsCliqueList S n l' → ∀ v, l' = [v] → ∃ u, S.Adj v u := by
    intro l' hl' v hv
    have := hl'.range v (by rw [hv]; simp)
    exact hiso v this.1 this.2
  obtain ⟨l0, h1, h2⟩ := hex
  obtain ⟨l2, e1, e2, e3⟩ := isolated_only h.edge hF.pyok.of.rng hnn h1 (key l0 h1)
  obtain ⟨pg', l, c1, c2, _, c4⟩ := C36_exact_partial h hnn hsrt junk hd ha hu
    ⟨l2, e1, e2, lt_of_lt_of_le h2 e3⟩
  exact ⟨pg', l, c1, c2, fun l' hl' => c4 l' hl' (key l' hl')⟩

/-- **C36**, when it raises: on a freshly loaded graph with nonnegative weights an exact search
raises only if no clique of two or more vertices is heavier than the lower bound. -/
theorem C36_raise_partial (h : WUsable pg n S ω) (hnn : ∀ v, 1 ≤ v → v ≤ n → 0 ≤ ω v)
    {srt : List (WData Rat) → List (WData Rat)} (hsrt : ∀ l, (srt l).Perm l) (junk : Nat → Rat)
    {a : PyNW.Args Rat} (hd : a.useDfs = true) (ha : 0 ≤ a.lowerBound)
    (hu : ∀ l, IsCliqueList S n l → weight ω l ≤ a.upperBound)
    {pg' : PyNW Rat} (hr : pg.getMaxClique srt junk a = .ok (pg', .raise)) :
    ∀ l, IsCliqueList S n l → 2 ≤ l.length → weight ω l ≤ a.lowerBound := by
  intro l hl h2
  by_contra hlt
  obtain ⟨pg2, l2, h3, _⟩ := C36_exact_partial h hnn hsrt junk hd ha hu ⟨l, hl, h2, not_le.1 hlt⟩
  rw [hr] at h3
  injection h3 with h3
  injection h3 with _ h3
  cases h3

/-- **C36** after any history of searches whose upper bounds were not below the weight of a
clique, once `reset_search` is called. -/
theorem C36_after_reset_partial (h : WUsable pg n S ω) (hnn : ∀ v, 1 ≤ v → v ≤ n → 0 ≤ ω v)
    {ops : List (WOp Rat)} (hl : ∀ op ∈ ops, op.Legal) (hx : ∀ op ∈ ops, op.Exact S n ω)
    {srt : List (WData Rat) → List (WData Rat)} (hsrt : ∀ l, (srt l).Perm l) (junk : Nat → Rat)
    {a : PyNW.Args Rat} (hd : a.useDfs = true) (ha : 0 ≤ a.lowerBound)
    (hu : ∀ l, IsCliqueList S n l → weight ω l ≤ a.upperBound)
    (hex : ∃ l, IsCliqueList S n l ∧ 2 ≤ l.length ∧ a.lowerBound < weight ω l) :
    ∃ pg1 pg' l, wruns (ops ++ [.reset]) pg = .ok pg1 ∧
      pg1.getMaxClique srt junk a = .ok (pg', .ret l) ∧ IsCliqueList S n l ∧
      ∀ l', IsCliqueList S n l' → (∀ v, l' = [v] → ∃ u, S.Adj v u) →
        weight ω l' ≤ weight ω l := by
  obtain ⟨H, hF⟩ := h.fresh
  have hnn' := hF.pyok.nonneg hnn
  obtain ⟨pg1, H1, a1, a2, a3, _, a4⟩ := wruns_spec ops hF.pyok hl
  obtain ⟨a5, a6⟩ := a4 hnn' hx (hF.bounds.mcsOk hF.pyok.ok.ok.wf.str hnn')
    (fun l hl => by
      rw [← hF.pyok.weight hl]
      exact wbounds_spec hF.pyok.of hF.pyok.ok.ok.wf hF.bounds hnn' hl)
  have hr : WOp.run pg1 .reset = .ok { pg1 with
      G := some { H1 with curMax := 0 }, finishedAll := false, currentVertex := 0 } := by
    simp only [WOp.run, PyNW.resetSearch, a2.g]
  have hP : WPyOk ({ pg1 with
      G := some { H1 with curMax := 0 }, finishedAll := false, currentVertex := 0 } : PyNW Rat)
      n S ω { H1 with curMax := 0 } :=
    ⟨rfl, a2.nv, a2.pos, ⟨a2.ok.ok, ⟨a2.ok.l.wt, a2.ok.l.deg, a2.ok.l.mcs⟩, a2.ok.loc⟩,
      a2.of, a2.w, a2.w0⟩
  obtain ⟨pg', l, h1, h2, _, h4⟩ := wexact hP hnn (wreset_mcs a5) a6 (le_refl _) hsrt junk hd hu
    (by
      show ∃ l, IsCliqueList S n l ∧ 2 ≤ l.length ∧ max a.lowerBound 0 < weight ω l
      rw [max_eq_left ha]; exact hex)
  refine ⟨_, pg', l, ?_, h1, h2, ?_⟩
  · unfold wruns at a1 ⊢
    rw [List.foldlM_append, a1, ok_bind, List.foldlM_cons, hr, ok_bind]
    rfl
  · intro l' hl' hiso
    obtain ⟨l2, e1, e2, e3⟩ := isolated_only h.edge hF.pyok.of.rng hnn hl' hiso
    exact le_trans e3 (h4 l2 e1 e2)

/-- On the sample the maximum weight is 11, although the largest clique has four vertices. -/
example : ∃ pg' l, Sample.wkite.getMaxClique Sample.byW (fun i => i) {} = .ok (pg', .ret l) ∧
    IsCliqueList (ofPairs Sample.rows) 5 l ∧ ∀ l', IsCliqueList (ofPairs Sample.rows) 5 l' →
      weight (nth ([2, 1/2, 3, 1, 10] : List Rat)) l' ≤ weight (nth ([2, 1/2, 3, 1, 10] : List Rat)) l := by
  refine C36_no_isolated Sample.wkite_usable Sample.wkite_nonneg ?_ Sample.byW_perm
    (fun i => i) rfl (by decide +kernel) ?_ ?_
  · intro v h1 h2
    have : v = 1 ∨ v = 2 ∨ v = 3 ∨ v = 4 ∨ v = 5 := by omega
    rcases this with rfl | rfl | rfl | rfl | rfl
    · exact ⟨2, by decide, Or.inl (by decide)⟩
    · exact ⟨3, by decide, Or.inl (by decide)⟩
    · exact ⟨4, by decide, Or.inl (by decide)⟩
    · exact ⟨5, by decide, Or.inl (by decide)⟩
    · exact ⟨4, by decide, Or.inr (by decide)⟩
  · intro l hl
    have := weight_le (ω := nth ([2, 1/2, 3, 1, 10] : List Rat)) Sample.wkite_nonneg hl
    exact le_trans this (by decide +kernel)
  · refine ⟨[4, 5], ⟨by decide, by decide, ?_⟩, by decide +kernel⟩
    intro x hx y hy hxy
    simp only [Set.mem_ofPred_eq, List.mem_pair] at hx hy
    rcases hx with rfl | rfl <;> rcases hy with rfl | rfl
    · exact absurd rfl hxy
    · exact ⟨by decide, Or.inl (by decide)⟩
    · exact ⟨by decide, Or.inr (by decide)⟩
    · exact absurd rfl hxy

/-- Without the heuristic the sort does not matter. -/
theorem noHeuristic {R : Type} [Zero R] [Add R] [Sub R] [NatCast R] [LT R] [LE R] [DecidableLT R]
    [DecidableLE R] {pg : PyNW R} (srt : List (WData R) → List (WData R)) (junk : Nat → R) {a : PyNW.Args R}
    (h : a.useHeuristic = false) :
    pg.getMaxClique srt junk a = pg.getMaxClique (fun l => l) junk a := by
  have key : ∀ H : NWG R, H.findMaxCliques srt junk 0 a.useHeuristic a.useDfs =
      H.findMaxCliques (fun l => l) junk 0 a.useHeuristic a.useDfs := by
    intro H
    unfold NWG.findMaxCliques
    rw [h]
    rfl
  unfold PyNW.getMaxClique
  simp only [key]

/-- Two vertices joined by a row form a clique. -/
theorem Sample.pair_clique {rows : List (Nat × Nat)} {u v n : Nat} (huv : u < v) (hu : 1 ≤ u)
    (hv : v ≤ n) (h : (u, v) ∈ rows) : IsCliqueList (ofPairs rows) n [u, v] := by
  refine ⟨by simpa using huv, ?_, ?_⟩
  · intro x hx
    rcases List.mem_pair.1 hx with rfl | rfl <;> omega
  · intro x hx y hy hxy
    simp only [Set.mem_ofPred_eq, List.mem_pair] at hx hy
    rcases hx with rfl | rfl <;> rcases hy with rfl | rfl
    · exact absurd rfl hxy
    · exact ⟨hxy, Or.inl h⟩
    · exact ⟨hxy, Or.inr h⟩
    · exact absurd rfl hxy

/-- A single vertex is a clique. -/
theorem Sample.single_clique {S : SimpleGraph Nat} {v n : Nat} (h1 : 1 ≤ v) (h2 : v ≤ n) :
    IsCliqueList S n [v] := by
  refine ⟨by simp, ?_, ?_⟩
  · intro x hx
    rw [List.mem_singleton] at hx
    omega
  · intro x hx y hy hxy
    simp only [Set.mem_ofPred_eq, List.mem_singleton] at hx hy
    omega

/-- **C36** is false: a heavy vertex without neighbours is not found. -/
theorem C36_refuted_isolated :
    ∃ (pg : PyNW Rat) (n : Nat) (S : SimpleGraph Nat) (ω : Nat → Rat),
    WUsable pg n S ω ∧ (∀ v, 1 ≤ v → v ≤ n → 0 < ω v) ∧
    ∃ l l', (∀ srt, (pg.getMaxClique srt (fun _ => 0) { useHeuristic := false } >>= fun x =>
        .ok x.2) = .ok (.ret l)) ∧ IsCliqueList S n l' ∧ weight ω l < weight ω l' := by
  refine ⟨Sample.get (PyNW.new (R := Rat)) (PyNW.fromEdgelist true 64 [(2, 3)] 3 [10, 1, 1]), 3,
    ofPairs [(2, 3)], nth ([10, 1, 1] : List Rat),
    ⟨.edgelist (argLR := true) (cap := 64) (by decide) (by decide) (by decide +kernel),
      Sample.wkept (by decide +kernel), 2, 3, by decide, Or.inl (by decide)⟩,
    by decide +kernel, [2, 3], [1], ?_, Sample.single_clique (by decide) (by decide),
    by decide +kernel⟩
  intro srt
  rw [noHeuristic srt _ rfl]
  decide +kernel

/-- **C36** is false: the default lower bound 1 hides cliques of weight 1 or less. -/
theorem C36_refuted_light :
    ∃ (pg : PyNW Rat) (n : Nat) (S : SimpleGraph Nat) (ω : Nat → Rat),
    WUsable pg n S ω ∧ (∀ v, 1 ≤ v → v ≤ n → 0 < ω v) ∧
    (∀ srt, (pg.getMaxClique srt (fun _ => 0) { useHeuristic := false } >>= fun x => .ok x.2) =
      .ok .raise) := by
  refine ⟨Sample.get (PyNW.new (R := Rat)) (PyNW.fromEdgelist true 64 [(1, 2)] 2 [1/2, 1/2]), 2,
    ofPairs [(1, 2)], nth ([1/2, 1/2] : List Rat),
    ⟨.edgelist (argLR := true) (cap := 64) (by decide) (by decide) (by decide +kernel),
      Sample.wkept (by decide +kernel), 1, 2, by decide, Or.inl (by decide)⟩,
    by decide +kernel, ?_⟩
  intro srt
  rw [noHeuristic srt _ rfl]
  decide +kernel

/-- **C36** is false: the default upper bound stops the search at weight 65535.  Here it
returns an edge of a 4-cycle, of weight 80000, and there is an edge of weight 100000. -/
theorem C36_refuted_heavy :
    ∃ (pg : PyNW Rat) (n : Nat) (S : SimpleGraph Nat) (ω : Nat → Rat),
    WUsable pg n S ω ∧ (∀ v, 1 ≤ v → v ≤ n → 0 < ω v) ∧
    ∃ l l', (∀ srt, (pg.getMaxClique srt (fun _ => 0) { useHeuristic := false } >>= fun x =>
        .ok x.2) = .ok (.ret l)) ∧ IsCliqueList S n l' ∧ weight ω l < weight ω l' := by
  refine ⟨Sample.get (PyNW.new (R := Rat))
      (PyNW.fromEdgelist true 64 [(1, 2), (2, 3), (3, 4), (1, 4), (5, 6)] 6
        [40000, 40000, 40000, 40000, 50000, 50000]), 6,
    ofPairs [(1, 2), (2, 3), (3, 4), (1, 4), (5, 6)],
    nth ([40000, 40000, 40000, 40000, 50000, 50000] : List Rat),
    ⟨.edgelist (argLR := true) (cap := 64) (by decide) (by decide) (by decide +kernel),
      Sample.wkept (by decide +kernel), 5, 6, by decide, Or.inl (by decide)⟩,
    by decide +kernel, [1, 2], [5, 6], ?_,
    Sample.pair_clique (by decide) (by decide) (by decide) (by decide), by decide +kernel⟩
  intro srt
  rw [noHeuristic srt _ rfl]
  decide +kernel

end CM
