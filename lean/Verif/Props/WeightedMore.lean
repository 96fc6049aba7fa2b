import Verif.Props.WeightedObject
import Verif.Props.Iteration
import Verif.Props.Correspondence

/-!
# C59-C67: bounds, iterators, weights, copies and correspondences of weighted graph objects
-/

namespace CM

open Spec Graph NWG

set_option linter.unusedSectionVars false

variable {pg : PyNW Rat} {n : Nat} {S : SimpleGraph Nat} {ω : Nat → Rat}

/-! ## C36, continued -/

/-- **C36** is false with negative weights: the exact search returns a single vertex of weight
10 although two vertices of weight 10 are joined. -/
theorem C36_refuted_negative :
    ∃ (pg : PyNW Rat) (n : Nat) (S : SimpleGraph Nat) (ω : Nat → Rat),
    WUsable pg n S ω ∧
    ∃ l l', (∀ srt, (pg.getMaxClique srt (fun _ => 0) { useHeuristic := false } >>= fun x =>
        .ok x.2) = .ok (.ret l)) ∧ IsCliqueList S n l' ∧ 2 ≤ l'.length ∧
      weight ω l < weight ω l' := by
  refine ⟨Sample.get (PyNW.new (R := Rat)) (PyNW.fromEdgelist true 64 [(1, 2), (1, 3), (3, 4), (3, 5)] 5
      [10, 10, -100, 60, 60]), 5, ofPairs [(1, 2), (1, 3), (3, 4), (3, 5)],
    nth ([10, 10, -100, 60, 60] : List Rat),
    ⟨.edgelist (argLR := true) (cap := 64) (by decide) (by decide) (by decide +kernel),
      Sample.wkept (by decide +kernel), 1, 2, by decide, Or.inl (by decide)⟩,
    [2], [1, 2], ?_, Sample.pair_clique (by decide) (by decide) (by decide) (by decide), by decide,
    by decide +kernel⟩
  intro srt
  rw [noHeuristic srt _ rfl]
  decide +kernel

/-! ## C59 -/

/-- **C59**, as far as it is true.  The full property: `get_max_clique(upper_bound=U)` returns
a clique no heavier than `U`, and as heavy as possible.  Proved: with nonnegative weights an
exact search on a fresh graph returns a clique at least as heavy as the smaller of `U` and the
weight of any clique with two or more vertices.  Missing, because false (`C59_refuted`): that it
is no heavier than `U`. -/
theorem C59_upper_bound_partial (h : WUsable pg n S ω) (hnn : ∀ v, 1 ≤ v → v ≤ n → 0 ≤ ω v)
    {srt : List (WData Rat) → List (WData Rat)} (hsrt : ∀ l, (srt l).Perm l) (junk : Nat → Rat)
    {a : PyNW.Args Rat} (hd : a.useDfs = true) (ha : 0 ≤ a.lowerBound)
    (hb : a.lowerBound < a.upperBound)
    (hex : ∃ l, IsCliqueList S n l ∧ 2 ≤ l.length ∧ a.lowerBound < weight ω l) :
    ∃ pg' l, pg.getMaxClique srt junk a = .ok (pg', .ret l) ∧ IsCliqueList S n l ∧
      a.lowerBound < weight ω l ∧
      ∀ l', IsCliqueList S n l' → 2 ≤ l'.length → min a.upperBound (weight ω l') ≤ weight ω l := by
  obtain ⟨H, hF⟩ := h.fresh
  have hnn' := hF.pyok.nonneg hnn
  obtain ⟨pg', H', b1, b2, b3, b4, _, _, _, b5, b6⟩ := wsearch_spec hF.pyok hsrt junk a
  obtain ⟨_, hbest⟩ := b6 hnn' (hF.bounds.mcsOk hF.pyok.ok.ok.wf.str hnn')
  have key : ∀ l, IsCliqueList S n l → 2 ≤ l.length →
      min a.upperBound (weight ω l) ≤ H'.curMax := by
    intro l hl h2
    rcases wbest_spec b2.of b2.ok.ok.wf (hbest hd) hl h2 with h3 | h3
    · rw [b2.weight hl] at h3
      exact le_trans (min_le_right _ _) h3
    · refine le_trans ?_ h3
      rw [b4]
      refine le_min (min_le_left _ _) (le_trans (min_le_right _ _) ?_)
      rw [← hF.pyok.weight hl]
      exact wbounds_spec hF.pyok.of hF.pyok.ok.ok.wf hF.bounds hnn' hl
  obtain ⟨l0, e1, e2, e3⟩ := hex
  have h0 : a.lowerBound < H'.curMax := lt_of_lt_of_le (lt_min hb e3) (key l0 e1 e2)
  have hrec : weight H'.w (wstored H') = H'.curMax := by
    rcases b5 with h3 | h3
    · rw [h3.1, hF.cm, max_eq_left ha] at h0; exact absurd h0 (lt_irrefl _)
    · exact h3
  have hloc : H'.curLoc ≠ 0 := by
    intro hz
    rw [wstored_zero b2 hz] at hrec
    simp only [weight, List.map_cons, List.map_nil, List.sum_cons, List.sum_nil, b2.w0,
      add_zero] at hrec
    rw [← hrec] at h0
    exact absurd ha (not_le.2 h0)
  have hcl := wstored_clique b2 hloc
  rw [b2.weight hcl] at hrec
  rw [b2.weight hcl, hrec, if_neg (not_lt.2 (le_of_lt h0))] at b1
  exact ⟨pg', _, b1, hcl, by rw [hrec]; exact h0, fun l' h1 h2 => by rw [hrec]; exact key l' h1 h2⟩

/-- **C59** is false: with `upper_bound = 2` the search on the sample returns a clique of weight
13/2 or, without the heuristic, 11. -/
theorem C59_refuted :
    WUsable Sample.wkite 5 (ofPairs Sample.rows) (nth ([2, 1/2, 3, 1, 10] : List Rat)) ∧
    (Sample.wkite.getMaxClique Sample.byW (fun _ => 0) { upperBound := 2 } >>= fun x => .ok x.2) =
      .ok (.ret [1, 2, 3, 4]) ∧
    (Sample.wkite.getMaxClique Sample.byW (fun _ => 0)
        { upperBound := 2, useHeuristic := false } >>= fun x => .ok x.2) = .ok (.ret [4, 5]) ∧
    2 < weight (nth ([2, 1/2, 3, 1, 10] : List Rat)) [1, 2, 3, 4] ∧
    2 < weight (nth ([2, 1/2, 3, 1, 10] : List Rat)) [4, 5] :=
  ⟨Sample.wkite_usable, by decide +kernel, by decide +kernel, by decide +kernel, by decide +kernel⟩

/-- The hypotheses of `C59_upper_bound_partial` for the same call. -/
example : ∃ pg' l, Sample.wkite.getMaxClique Sample.byW (fun _ => 0) { upperBound := 2 } =
      .ok (pg', .ret l) ∧ IsCliqueList (ofPairs Sample.rows) 5 l ∧
      1 < weight (nth ([2, 1/2, 3, 1, 10] : List Rat)) l ∧
      ∀ l', IsCliqueList (ofPairs Sample.rows) 5 l' → 2 ≤ l'.length →
        min 2 (weight (nth ([2, 1/2, 3, 1, 10] : List Rat)) l') ≤
          weight (nth ([2, 1/2, 3, 1, 10] : List Rat)) l := by
  have := C59_upper_bound_partial Sample.wkite_usable Sample.wkite_nonneg
    (srt := Sample.byW) Sample.byW_perm (fun _ => 0) (a := { upperBound := 2 }) rfl
    (by decide +kernel) (by decide +kernel)
    ⟨[4, 5], Sample.pair_clique (by decide) (by decide) (by decide) (by decide), by decide,
      by decide +kernel⟩
  dsimp only at this
  exact this

/-! ## C60 -/

section

variable {R : Type} [Zero R] [Add R] [Sub R] [NatCast R] [LT R] [LE R] [DecidableLT R]
  [DecidableLE R] {pg : PyNW R} {n : Nat} {S : SimpleGraph Nat} {ω : Nat → R}

/-- **C60**: after any history, with any weights, the answers to any number `m` of `next()` calls
on a new `all_cliques(W)` iterator are the first `m` of a finite list of cliques, that of
`list(G.all_cliques(W))`, followed by `StopIteration` (`none`) for ever. -/
theorem C60_terminates (h : WUsable pg n S ω) {ops : List (WOp R)} (hl : ∀ op ∈ ops, op.Legal)
    (junk : Nat → R) (W : R) :
    ∃ pg1 pg2 E cs, wruns ops pg = .ok pg1 ∧ pg1.allCliques junk W = .ok E ∧
      pg1.listCliques junk W = .ok (pg2, cs) ∧
      ∀ m, ∃ pg' E', PyNW.nexts m pg1 E =
        .ok (pg', E', (cs.map some ++ List.replicate m none).take m) := by
  obtain ⟨H, hF⟩ := AW.wusable_fresh h
  obtain ⟨pg1, H1, a1, a2, _⟩ := AW.wruns_spec ops hF.pyok hl
  obtain ⟨fuel, E, H2, E', cs, b1, b2, b4, b5, b3, _⟩ := AW.wlistCliques_spec a2 junk W
  refine ⟨pg1, _, E, cs, a1, b1, b3, fun m => ?_⟩
  exact wnexts_of_consume fuel b2 (wnext_end (pg := { pg1 with G := some H2 }) rfl b5 b4) m

end

example : (Sample.wkite.allCliques (fun i => (i : Rat)) 3 >>= fun E => PyNW.nexts 6 Sample.wkite E >>=
      fun x => .ok x.2.2) =
    .ok [some [2, 3], some [3, 4], some [4, 5], none, none, none] := by
  decide +kernel

/-! ## C61 -/

section

variable {R : Type} [Zero R] [Add R] [Sub R] [NatCast R] [LT R] [LE R] [DecidableLT R]
  [DecidableLE R] {pg : PyNW R} {n : Nat} {S : SimpleGraph Nat} {ω : Nat → R}

/-- **C61**: after any sequence of searches, resets and complete iterations the scratch part of
the buffer is entirely free and every word of it is zero. -/
theorem C61_memory_returned (h : WUsable pg n S ω) {ops : List (WOp R)} (hl : ∀ op ∈ ops, op.Legal) :
    ∃ pg1 H, wruns ops pg = .ok pg1 ∧ pg1.G = some H ∧ H.g.searchCur = H.g.searchStart ∧
      ∀ i, H.g.searchStart ≤ i → H.g.eb.getD i 0#64 = 0#64 := by
  obtain ⟨H, hF⟩ := AW.wusable_fresh h
  obtain ⟨pg1, H1, a1, a2, _⟩ := AW.wruns_spec ops hF.pyok hl
  refine ⟨pg1, H1, a1, a2.g, a2.ok.ok.cur, ?_⟩
  intro i hi
  have hs := a2.ok.ok.wf.start
  apply BitVec.eq_of_getMsbD_eq
  intro j hj
  have := a2.ok.ok.zero (64 * i + j) (by omega)
  unfold bitAt at this
  have e1 : (64 * i + j) / 64 = i := by omega
  have e2 : (64 * i + j) % 64 = j := by omega
  rw [e1, e2] at this
  rw [this]
  simp

end

/-- A history of the sample that uses the scratch memory, and what it leaves there. -/
example : (wruns Sample.whistory Sample.wkite >>= fun pg =>
    .ok (pg.G.map fun H => decide (H.g.searchCur = H.g.searchStart ∧
      (H.g.eb.drop H.g.searchStart).all (· == 0#64)))) = .ok (some true) := by decide +kernel

/-! ## C62 -/

theorem wruns_append (ops ops' : List (WOp Rat)) (pg : PyNW Rat) :
    wruns (ops ++ ops') pg = (wruns ops pg >>= wruns ops') := by
  unfold wruns
  rw [List.foldlM_append]

/-- **C62**, as far as it is true.  The full property: iterators on one weighted graph do not
influence each other or searches.  Proved: with nonnegative weights, iterators consumed one
after the other, with resets, iterations and searches that are not cut short in between, yield
the same cliques.  Missing, because false (`C62_refuted`): interleaving two iterators. -/
theorem C62_sequential_partial (h : WUsable pg n S ω) (hnn : ∀ v, 1 ≤ v → v ≤ n → 0 ≤ ω v)
    {ops ops' : List (WOp Rat)} (hl : ∀ op ∈ ops, op.Legal) (hx : ∀ op ∈ ops, op.Exact S n ω)
    (hl' : ∀ op ∈ ops', op.Legal) (hx' : ∀ op ∈ ops', op.Exact S n ω) (junk junk' : Nat → Rat)
    (W : Rat) :
    ∃ pg1 pg2 pg3 pg4 cs cs', wruns ops pg = .ok pg1 ∧ pg1.listCliques junk W = .ok (pg2, cs) ∧
      wruns ops' pg2 = .ok pg3 ∧ pg3.listCliques junk' W = .ok (pg4, cs') ∧ cs.Perm cs' := by
  obtain ⟨pg1, pg2, cs, a1, a2, a3, a4⟩ := C46_exactly_partial h hnn hl hx junk W
  obtain ⟨pg3, pg4, cs', b1, b2, b3, b4⟩ := C46_exactly_partial
    (ops := ops ++ .list junk W :: ops') h hnn
    (by
      intro op hop
      rcases List.mem_append.1 hop with hop | hop
      · exact hl op hop
      · rcases List.mem_cons.1 hop with rfl | hop
        · trivial
        · exact hl' op hop)
    (by
      intro op hop
      rcases List.mem_append.1 hop with hop | hop
      · exact hx op hop
      · rcases List.mem_cons.1 hop with rfl | hop
        · trivial
        · exact hx' op hop) junk' W
  have hrun : wruns (ops ++ .list junk W :: ops') pg = wruns ops' pg2 := by
    rw [wruns_append, a1, ok_bind, wruns_cons]
    show ((pg1.listCliques junk W >>= _) >>= _) = _
    rw [a2, ok_bind, ok_bind]
  refine ⟨pg1, pg2, pg3, pg4, cs, cs', a1, a2, by rw [← hrun]; exact b1, b2, ?_⟩
  rw [List.perm_ext_iff_of_nodup a3 b3]
  intro l
  rw [a4, b4]

/-- Two iterators asked for `m` results each, in turn. -/
def walternate : Nat → PyNW Rat → WEnum Rat → WEnum Rat →
    M (List (Option (List Nat)) × List (Option (List Nat)))
  | 0, _, _, _ => .ok ([], [])
  | m + 1, pg, E1, E2 => do
    let (pg, E1, a) ← pg.nextClique E1
    let (pg, E2, b) ← pg.nextClique E2
    let (as, bs) ← walternate m pg E1 E2
    .ok (a :: as, b :: bs)

namespace Sample

/-- The diamond with unit weights. -/
def wdiamond : PyNW Rat := get (PyNW.new (R := Rat))
      (PyNW.fromEdgelist true 64 diamondRows 4 [1, 1, 1, 1])

theorem wdiamond_usable : WUsable wdiamond 4 (ofPairs diamondRows) (nth ([1, 1, 1, 1] : List Rat)) :=
  ⟨.edgelist (argLR := true) (cap := 64) (by decide) (by decide) (by decide +kernel),
    wkept (by decide +kernel), 1, 2, by decide, Or.inl (by decide)⟩

end Sample

/-- **C62** fails: alone, the iterator over cliques of weight 2 of the diamond yields four of
its edges; asked in turn with an iterator over cliques of weight 3, it loses `[2, 4]`. -/
theorem C62_refuted : WUsable Sample.wdiamond 4 (ofPairs Sample.diamondRows) (nth ([1, 1, 1, 1] : List Rat)) ∧
    ∃ E2 E3, Sample.wdiamond.allCliques (fun _ => 0) 2 = .ok E2 ∧
      Sample.wdiamond.allCliques (fun _ => 0) 3 = .ok E3 ∧
      (PyNW.nexts 5 Sample.wdiamond E2 >>= fun x => .ok x.2.2) =
        .ok [some [1, 3], some [2, 3], some [1, 4], some [2, 4], none] ∧
      (walternate 5 Sample.wdiamond E2 E3 >>= fun x => .ok x.1) =
        .ok [some [1, 3], some [2, 3], some [1, 4], none, none] :=
  ⟨Sample.wdiamond_usable, Sample.get (WEnum.new [] 0) (Sample.wdiamond.allCliques (fun _ => 0) 2),
    Sample.get (WEnum.new [] 0) (Sample.wdiamond.allCliques (fun _ => 0) 3),
    by decide +kernel, by decide +kernel, by decide +kernel, by decide +kernel⟩

example : (Sample.wdiamond.listCliques (fun _ => 0) 2 >>= fun x =>
    wruns [.search Sample.byW (fun _ => 0) {}, .list (fun _ => 0) 3, .reset] x.1 >>= fun pg =>
    pg.listCliques (fun _ => 7) 2 >>= fun y => .ok (x.2, y.2)) =
    .ok ([[1, 3], [2, 3], [1, 4], [2, 4]], [[1, 3], [2, 3], [1, 4], [2, 4]]) := by
  decide +kernel

/-! ## C63 -/

section

variable {R : Type} [Zero R] [Add R] [Sub R] [NatCast R] [LT R] [LE R] [DecidableLT R]
  [DecidableLE R] {pg : PyNW R} {n : Nat} {S : SimpleGraph Nat} {ω : Nat → R}

/-- **C63**, as far as it is true.  The full property: every method of an `NWGraph` that was
created but not loaded raises.  Proved: the searches, the iterators, the exports, the weights,
and `_vertex_neighbors(i)` for `i ≥ 1` do.  Missing, because false (`C63_refuted`):
`reset_search()` and `_vertex_neighbors(0)`. -/
theorem C63_unloaded_raises_partial (srt : List (WData R) → List (WData R)) (junk : Nat → R)
    (a : PyNW.Args R) (len2 i : Nat) (W : R) (c : List Nat) (hi : 1 ≤ i) :
    (∃ pg', (PyNW.new (R := R)).getMaxClique srt junk a = .ok (pg', .raise)) ∧
    (∃ pg', (PyNW.new (R := R)).getCorrespondence srt junk len2 a = .ok (pg', .raise)) ∧
    (PyNW.new (R := R)).allCliques junk W = .error .throw ∧
    (PyNW.new (R := R)).listCorrespondences junk len2 W = .error .throw ∧
    (PyNW.new (R := R)).toEdgelist = .error .throw ∧
    (PyNW.new (R := R)).toMatrix = .error .throw ∧
    (PyNW.new (R := R)).toAdjList = .error .throw ∧
    (PyNW.new (R := R)).getAllWeights = .error .throw ∧
    (PyNW.new (R := R)).getCliqueWeight c = .error .throw ∧
    (PyNW.new (R := R)).getVertexData i = .error .throw := by
  refine ⟨⟨_, rfl⟩, ⟨_, rfl⟩, rfl, rfl, rfl, rfl, rfl, rfl, rfl, ?_⟩
  unfold PyNW.getVertexData
  rw [if_pos (show i > (PyNW.new (R := R)).nvert by show i > 0; omega)]

/-- **C63** fails: `NWGraph().reset_search()` and `NWGraph()._vertex_neighbors(0)` dereference
a null pointer. -/
theorem C63_refuted : (PyNW.new (R := R)).resetSearch = .error .ub ∧
    (PyNW.new (R := R)).getVertexData 0 = .error .ub := ⟨rfl, rfl⟩

end

/-! ## C64 -/

/-- `get_clique_weight` of any list on a graph. -/
theorem cliqueWeight_any {H : NWG Rat} (l : Lens H) (c : List Nat) :
    H.cliqueWeight c = .ok (weight H.w (c.filter fun v => decide (v < H.g.nVert))) := by
  unfold cliqueWeight
  have key : ∀ (c : List Nat) (a : Rat),
      c.foldlM (fun wt v =>
        if v < H.g.nVert then do
          let w ← rd H.wt v
          .ok (wt + w)
        else (.ok wt : M Rat)) a =
        .ok (a + weight H.w (c.filter fun v => decide (v < H.g.nVert))) := by
    intro c
    induction c with
    | nil => intro a; simp [weight]
    | cons v c ih =>
      intro a
      rw [List.foldlM_cons]
      by_cases hv : v < H.g.nVert
      · rw [if_pos hv, rd_wt l hv, ok_bind, ok_bind, ih,
          List.filter_cons_of_pos (by simpa using hv)]
        simp [weight, add_assoc]
      · rw [if_neg hv, ok_bind, ih, List.filter_cons_of_neg (by simpa using hv)]
  rw [key c 0, zero_add]

/-- **C64**: after any history `get_clique_weight(l)` adds up, without a fault, the given
weights of those entries of `l` that are vertices, repetitions included, whatever `l` is; it is
the weight of `l` if all entries are vertices. -/
theorem C64_clique_weight (h : WUsable pg n S ω) {ops : List (WOp Rat)} (hl : ∀ op ∈ ops, op.Legal)
    (l : List Nat) :
    ∃ pg1, wruns ops pg = .ok pg1 ∧
      pg1.getCliqueWeight l = .ok (weight ω (l.filter fun v => decide (1 ≤ v ∧ v ≤ n))) ∧
      ((∀ v ∈ l, 1 ≤ v ∧ v ≤ n) → pg1.getCliqueWeight l = .ok (weight ω l)) := by
  obtain ⟨H, hF⟩ := h.fresh
  obtain ⟨pg1, H1, a1, a2, _⟩ := wruns_spec ops hF.pyok hl
  have key : pg1.getCliqueWeight l =
      .ok (weight ω (l.filter fun v => decide (1 ≤ v ∧ v ≤ n))) := by
    unfold PyNW.getCliqueWeight
    rw [a2.loaded]
    simp only
    rw [cliqueWeight_any a2.ok.l]
    congr 1
    have hnv := a2.of.nv
    unfold weight
    induction l with
    | nil => rfl
    | cons v l ih =>
      by_cases h0 : v = 0
      · subst h0
        rw [List.filter_cons_of_pos (by simp; omega), List.filter_cons_of_neg (by simp),
          List.map_cons, List.sum_cons, a2.w0, zero_add, ih]
      · by_cases h1 : v ≤ n
        · rw [List.filter_cons_of_pos (by simp; omega), List.filter_cons_of_pos (by simp; omega),
            List.map_cons, List.sum_cons, List.map_cons, List.sum_cons, ih,
            a2.w v (by omega) h1]
        · rw [List.filter_cons_of_neg (by simp; omega), List.filter_cons_of_neg (by simp; omega), ih]
  refine ⟨pg1, a1, key, fun hr => ?_⟩
  rw [key, List.filter_eq_self.2 (fun v hv => by simpa using hr v hv)]

example : (wruns Sample.whistory Sample.wkite >>= fun pg => pg.getCliqueWeight [5, 3, 77, 0, 3]) =
    .ok 16 := by decide +kernel

/-! ## C65 -/

section

variable {R : Type} [Zero R] [Add R] [Sub R] [NatCast R] [LT R] [LE R] [DecidableLT R]
  [DecidableLE R] {pg : PyNW R} {n : Nat} {S : SimpleGraph Nat} {ω : Nat → R}

/-- **C65**: after any history, the matrix and the weights an object exports are accepted by
`from_matrix`, and the object made from them stands for the same weighted graph. -/
theorem C65_matrix_copy (h : WUsable pg n S ω) (hn : n < 2 ^ 28) {ops : List (WOp R)}
    (hl : ∀ op ∈ ops, op.Legal) (argLR : Bool) (cap : Nat) :
    ∃ pg1 m ws pg2, wruns ops pg = .ok pg1 ∧ pg1.toMatrix = .ok m ∧ pg1.getAllWeights = .ok ws ∧
      PyNW.fromMatrix argLR cap m.length (m.getD 0 []).length
        (fun i j => (m.getD i []).getD j false) ws = .ok pg2 ∧
      WLoaded pg2 n S (nth ws) ∧ ∀ v, 1 ≤ v → v ≤ n → nth ws v = ω v := by
  obtain ⟨H, hF⟩ := AW.wusable_fresh h
  obtain ⟨pg1, a1, _, _, ⟨m, a2, a3, a4, a5⟩, _⟩ := C47_exports_kept h hl
  obtain ⟨pg1', b1, b2, _⟩ := C34_kept h hl
  rw [a1] at b1
  cases b1
  have hpos : n ≠ 0 := hF.pyok.pos
  have hlen : ((List.range n).map fun i => ω (i + 1)).length = n := by simp
  obtain ⟨c1, _, _⟩ := C34_from_matrix argLR cap (r := n) (c := n)
    (fun i j => (m.getD i []).getD j false) (wts := (List.range n).map fun i => ω (i + 1)) hn
  obtain ⟨pg2, c2⟩ := c1.2 ⟨rfl, hlen⟩
  have hS : ofMatrix n (fun i j => (m.getD i []).getD j false) = S := by
    ext u v
    show (u ≠ v ∧ (1 ≤ u ∧ u ≤ n) ∧ (1 ≤ v ∧ v ≤ n) ∧ _) ↔ _
    constructor
    · rintro ⟨_, hu, hv, h1 | h1⟩
      · exact (a5 u v hu hv).1 h1
      · exact ((a5 v u hv hu).1 h1).symm
    · intro hA
      obtain ⟨hu, hv⟩ := hF.pyok.of.rng u v hA
      exact ⟨hA.ne, hu, hv, Or.inl ((a5 u v hu hv).2 hA)⟩
  refine ⟨pg1, m, _, pg2, a1, a2, b2, by rw [a3, a4 0 (by omega)]; exact c2, ?_, ?_⟩
  · have := WLoaded.matrix hn c2
    rwa [hS] at this
  · intro v h1 h2
    unfold nth
    rw [List.getD_eq_getElem?_getD, List.getElem?_map, List.getElem?_range (by omega)]
    simp only [Option.map_some, Option.getD_some]
    rw [Nat.sub_add_cancel h1]

/-- **C65** for the edge list, if the object counts its edges correctly (see C06). -/
theorem C65_edgelist_copy (h : WUsable pg n S ω) (hm : pg.nedges = edgeCount S n)
    (hsz : edgeCount S n < 2 ^ 56) {ops : List (WOp R)} (hl : ∀ op ∈ ops, op.Legal) (argLR : Bool)
    (cap : Nat) :
    ∃ pg1 es ws pg2, wruns ops pg = .ok pg1 ∧ pg1.toEdgelist = .ok (es.map some) ∧
      pg1.getAllWeights = .ok ws ∧ PyNW.fromEdgelist argLR cap es n ws = .ok pg2 ∧
      WLoaded pg2 n S (nth ws) ∧ ∀ v, 1 ≤ v → v ≤ n → nth ws v = ω v := by
  obtain ⟨H, hF⟩ := AW.wusable_fresh h
  obtain ⟨pg1, a1, _, a0, _, _, a2⟩ := C47_exports_kept h hl
  obtain ⟨es, a3, a4, a5⟩ := a2 (by rw [a0, hm])
  obtain ⟨pg1', b1, b2, _⟩ := C34_kept h hl
  rw [a1] at b1
  cases b1
  have hlen : ((List.range n).map fun i => ω (i + 1)).length = n := by simp
  have hes : es.length < 2 ^ 56 := by
    rw [edgeCount_list hF.pyok.of.rng (lexLt_nodup a4) a5]; exact hsz
  obtain ⟨c1, _, _⟩ := C34_from_edgelist argLR cap (n := n) (rows := es)
    (wts := (List.range n).map fun i => ω (i + 1)) hF.small hes
  obtain ⟨pg2, c2⟩ := c1.2 ⟨fun r hr => hF.pyok.of.rng _ _ ((a5 r).1 hr).2, hlen⟩
  have hS : ofPairs es = S := by
    ext u v
    show (u ≠ v ∧ ((u, v) ∈ es ∨ (v, u) ∈ es)) ↔ _
    rw [a5, a5]
    constructor
    · rintro ⟨_, h1 | h1⟩
      · exact h1.2
      · exact h1.2.symm
    · intro hA
      refine ⟨hA.ne, ?_⟩
      rcases Nat.lt_or_gt_of_ne hA.ne with h1 | h1
      · exact Or.inl ⟨h1, hA⟩
      · exact Or.inr ⟨h1, hA.symm⟩
  refine ⟨pg1, es, _, pg2, a1, a3, b2, c2, ?_, ?_⟩
  · have := WLoaded.edgelist hF.small hes c2
    rwa [hS] at this
  · intro v h1 h2
    unfold nth
    rw [List.getD_eq_getElem?_getD, List.getElem?_map, List.getElem?_range (by omega)]
    simp only [Option.map_some, Option.getD_some]
    rw [Nat.sub_add_cancel h1]

end

/-- A copy of the sample after a history is the sample, up to the buffer's capacity. -/
example : (wruns Sample.whistory Sample.wkite >>= fun pg => pg.getAllWeights >>= fun ws =>
    pg.toEdgelist >>= fun es =>
    PyNW.fromEdgelist true 64 (es.map fun e => e.getD (0, 0)) 5 ws) = .ok Sample.wkite := by
  decide +kernel

/-! ## C66 -/

/-- **C66**: on the same graph, with all weights one and at most 65535 vertices, the default
calls of `NWGraph.get_max_clique` and `Graph.get_max_clique` return cliques of the same size. -/
theorem C66_unit_weights {pw : PyNW Rat} {pg : PyGraph} (hw : WUsable pw n S ω)
    (hone : ∀ v, 1 ≤ v → v ≤ n → ω v = 1) (h : Usable pg n S) (hn : n ≤ 65535)
    {srt : List (WData Rat) → List (WData Rat)} (hsrt : ∀ l, (srt l).Perm l) (junk : Nat → Rat)
    {srt' : List VData → List VData} (hsrt' : ∀ l, (srt' l).Perm l) :
    ∃ pw' pg' l l', pw.getMaxClique srt junk {} = .ok (pw', .ret l) ∧
      pg.getMaxClique srt' {} = .ok (pg', .ret l') ∧ IsCliqueList S n l ∧ IsCliqueList S n l' ∧
      l.length = l'.length := by
  have hwt : ∀ l, IsCliqueList S n l → weight ω l = l.length := by
    intro l hl
    have : weight ω l = weight (fun _ => 1) l :=
      weight_congr (fun v hv => hone v (hl.range v hv).1 (hl.range v hv).2)
    rw [this]
    unfold weight
    simp
  obtain ⟨u, v, huv⟩ := hw.edge
  obtain ⟨H, hF⟩ := hw.fresh
  have hpair : ∃ l, IsCliqueList S n l ∧ l.length = 2 := by
    obtain ⟨hu, hv⟩ := hF.pyok.of.rng u v huv
    have key : ∀ u v, S.Adj u v → u < v → (1 ≤ u ∧ u ≤ n) → (1 ≤ v ∧ v ≤ n) →
        IsCliqueList S n [u, v] := by
      intro u v hA hlt hu hv
      refine ⟨by simpa using hlt, ?_, ?_⟩
      · intro x hx
        simp only [List.mem_cons, List.not_mem_nil, or_false] at hx
        rcases hx with rfl | rfl <;> assumption
      · intro x hx y hy hxy
        simp only [Set.mem_ofPred_eq, List.mem_cons, List.not_mem_nil, or_false] at hx hy
        rcases hx with rfl | rfl <;> rcases hy with rfl | rfl
        · exact absurd rfl hxy
        · exact hA
        · exact hA.symm
        · exact absurd rfl hxy
    rcases Nat.lt_or_gt_of_ne huv.ne with h1 | h1
    · exact ⟨_, key u v huv h1 hu hv, rfl⟩
    · exact ⟨_, key v u huv.symm h1 hv hu, rfl⟩
  obtain ⟨l0, hl0, h02⟩ := hpair
  obtain ⟨pw', l, a1, a2, a3, a4⟩ := C36_exact_partial hw
    (fun v h1 h2 => by rw [hone v h1 h2]; exact zero_le_one) hsrt junk (a := {}) rfl
    (by decide +kernel)
    (fun l hl => by
      rw [hwt l hl]
      have := Nat.le_trans hl.length_le hn
      show (l.length : Rat) ≤ 65535
      exact_mod_cast this)
    ⟨l0, hl0, by omega, by
      rw [hwt l0 hl0, h02]
      decide +kernel⟩
  obtain ⟨pg', l', b1, b2, b3⟩ := C10_default_call h hn hsrt'
  refine ⟨pw', pg', l, l', a1, b1, a2, b2, Nat.le_antisymm (b3 l a2) ?_⟩
  have h2' : 2 ≤ l'.length := by rw [← h02]; exact b3 l0 hl0
  have := a4 l' b2 (by rintro v rfl; simp at h2')
  rw [hwt l' b2, hwt l a2] at this
  exact_mod_cast this

example : (Sample.wdiamond.getMaxClique Sample.byW (fun _ => 0) {} >>= fun x =>
      .ok x.2) = .ok (.ret [1, 2, 3]) ∧
    (Sample.diamond.getMaxClique Sample.byDegree {} >>= fun x => .ok x.2) = .ok (.ret [1, 2, 3]) ∧
    ∀ v, 1 ≤ v → v ≤ 4 → nth ([1, 1, 1, 1] : List Rat) v = 1 := by
  refine ⟨by decide +kernel, by decide +kernel, by decide +kernel⟩

end CM
