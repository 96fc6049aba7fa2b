import Verif.Props.Weighted

/-!
# C45-C46: iterating over the cliques of a weighted graph

`PyNW.listCliques junk pg W` is `list(G.all_cliques(W))`; `junk` is the content of storage the
enumerator reserves and does not initialise, and is arbitrary.
-/

namespace CM

open Spec Graph NWG

variable {pg : PyNW Rat} {n : Nat} {S : SimpleGraph Nat} {ω : Nat → Rat}

/-! ## C45 -/

/-- **C45**: after any history of calls, with any weights and for every `W`, iterating
`all_cliques(W)` to the end terminates without touching memory it should not; every list it
reports is a clique with at least two vertices that weighs at least `W`, and none is reported
twice. -/
theorem C45_sound (h : WUsable pg n S ω) {ops : List (WOp Rat)} (hl : ∀ op ∈ ops, op.Legal)
    (junk : Nat → Rat) (W : Rat) :
    ∃ pg1 pg2 cs, wruns ops pg = .ok pg1 ∧ pg1.listCliques junk W = .ok (pg2, cs) ∧
      cs.Nodup ∧ ∀ l ∈ cs, IsCliqueList S n l ∧ 2 ≤ l.length ∧ W ≤ weight ω l := by
  obtain ⟨H, hF⟩ := h.fresh
  obtain ⟨pg1, H1, a1, a2, a3, _⟩ := wruns_spec ops hF.pyok hl
  obtain ⟨H2, cs, b1, _, _, b2, b3, b4⟩ := wlistCliques_spec a2 junk W
  refine ⟨pg1, _, cs, a1, b1, b2, ?_⟩
  intro l hl
  obtain ⟨c1, c2⟩ := b3 l hl
  obtain ⟨u, _, _, c3⟩ := (b4 (by
    intro u hu
    rw [a3.d, hF.d u hu, a3.V]
    exact Finset.sum_congr rfl (fun j _ => (a3.we u j).symm))).1 l hl
  exact ⟨c1, c2, c3.1⟩

/-- With negative weights, after a history. -/
example : ∃ pg, WUsable pg 4 (ofPairs [(1, 2), (2, 3), (3, 4), (1, 4), (2, 4)])
      (nth ([3, -1, 2, 5] : List Rat)) ∧
    (wruns [.list (fun _ => 7) 1, .reset] pg >>= fun pg =>
      pg.listCliques (fun _ => -1) 5 >>= fun x => .ok x.2) =
      .ok [[2, 3, 4], [3, 4]] := by
  refine ⟨Sample.get (PyNW.new (R := Rat)) (PyNW.fromEdgelist true 64 [(1, 2), (2, 3), (3, 4), (1, 4), (2, 4)] 4
      [3, -1, 2, 5]),
    ⟨.edgelist (argLR := true) (cap := 64) (by decide) (by decide) (by decide +kernel),
      Sample.wkept (by decide +kernel), 1, 2, by decide, Or.inl (by decide)⟩, ?_⟩
  decide +kernel

/-! ## C46 -/

/-- A sublist of a clique is a clique. -/
theorem Spec.IsCliqueList.sub {l l' : List Nat} (h : IsCliqueList S n l) (hs : l'.Sublist l) :
    IsCliqueList S n l' :=
  ⟨h.increasing.sublist hs, fun v hv => h.range v (hs.subset hv),
    fun _ hx _ hy hxy => h.clique (hs.subset hx) (hs.subset hy) hxy⟩

/-- Among the vertices of a heavy clique some, the first of them included, form a clique that
reaches the weight with its last vertex. -/
theorem exists_reached {l : List Nat} (hl : IsCliqueList S n l) (h2 : 2 ≤ l.length) {u : Nat}
    (hu : WFirst S n ω u l) {W : Rat} (hW : W ≤ weight ω l) :
    ∃ l', IsCliqueList S n l' ∧ 2 ≤ l'.length ∧ l' ⊆ l ∧ WFirst S n ω u l' ∧
      ReachedLast ω W u l' := by
  have hnd : l.Nodup := hl.increasing.imp (fun h => Nat.ne_of_lt h)
  have hne : (l.erase u).Nodup := hnd.erase u
  have hlen : (l.erase u).length + 1 = l.length := by
    rw [List.length_erase_of_mem hu.1]; omega
  have hperm : (u :: l.erase u).Perm l := (List.perm_cons_erase hu.1).symm
  have hall : W ≤ weight ω ((u :: l.erase u).take l.length) := by
    rw [List.take_of_length_le (by simp; omega)]
    have : weight ω (u :: l.erase u) = weight ω l := (hperm.map ω).sum_eq
    rw [this]; exact hW
  classical
  let Q : Nat → Prop := fun m => 2 ≤ m ∧ W ≤ weight ω ((u :: l.erase u).take m)
  have hex : ∃ m, Q m := ⟨l.length, h2, hall⟩
  obtain ⟨m, ⟨hm2, hmW⟩, hmin⟩ : ∃ m, Q m ∧ ∀ k, k < m → ¬ Q k :=
    ⟨Nat.find hex, Nat.find_spec hex, fun k hk => Nat.find_min hex hk⟩
  have hml : m ≤ l.length := by
    by_contra hlt
    exact hmin l.length (by omega) ⟨h2, hall⟩
  obtain ⟨k, rfl⟩ : ∃ k, m = k + 1 := ⟨m - 1, by omega⟩
  rw [List.take_succ_cons] at hmW
  let l' := l.filter fun x => decide (x = u ∨ x ∈ (l.erase u).take k)
  have hsub : l'.Sublist l := List.filter_sublist
  have hmem : ∀ x, x ∈ l' ↔ x = u ∨ x ∈ (l.erase u).take k := by
    intro x
    show x ∈ List.filter _ _ ↔ _
    rw [List.mem_filter, decide_eq_true_eq]
    refine ⟨fun h => h.2, fun h => ⟨?_, h⟩⟩
    rcases h with rfl | h
    · exact hu.1
    · exact List.mem_of_mem_erase (List.mem_of_mem_take h)
  have hcl := hl.sub hsub
  have hu' : u ∈ l' := (hmem u).2 (Or.inl rfl)
  have hnu : u ∉ (l.erase u).take k := fun h => by
    have := List.mem_of_mem_take h
    rw [hnd.mem_erase_iff] at this
    exact this.1 rfl
  have her : l'.erase u = (l.erase u).take k := by
    apply sorted_ext (hcl.increasing.sublist List.erase_sublist)
      ((hl.increasing.sublist List.erase_sublist).sublist (List.take_sublist _ _))
    intro x
    rw [(hnd.sublist hsub).mem_erase_iff, hmem]
    constructor
    · rintro ⟨h1, h2 | h2⟩
      · exact absurd h2 h1
      · exact h2
    · intro h
      exact ⟨by rintro rfl; exact hnu h, Or.inr h⟩
  have hlen' : l'.length = k + 1 := by
    have := List.length_erase_of_mem hu'
    rw [her, List.length_take] at this
    have hp := List.length_pos_of_mem hu'
    omega
  have hw' : weight ω l' = weight ω (u :: (l.erase u).take k) := by
    rw [← her]
    exact ((List.perm_cons_erase hu').map ω).sum_eq
  refine ⟨l', hcl, by omega, hsub.subset, ⟨hu', fun v hv => hu.2 v (hsub.subset hv)⟩, ?_, ?_⟩
  · rw [hw']; exact hmW
  · intro j hj2 hj
    rw [her]
    have hjk : j < k + 1 := by omega
    have h3 := hmin j hjk
    have h4 : (u :: (l.erase u).take k).take j = (u :: l.erase u).take j := by
      rw [← List.take_succ_cons, List.take_take, Nat.min_eq_left (by omega)]
    rw [h4]
    by_contra hge
    exact h3 ⟨hj2, not_lt.1 hge⟩

/-- **C46**, what holds of it: with nonnegative weights, after any history of iterations and
searches with sufficient upper bounds, `list(G.all_cliques(W))` contains exactly the cliques
with at least two vertices, whose first vertex (by weight of the neighbourhood, then by number)
is not vertex 1, and whose weight reaches `W` when the last vertex is added to the others in
increasing order after the first.  Missing from the claim: cliques whose first vertex is 1
(`C46_refuted_first_vertex`), cliques reaching `W` before their last vertex
(`C46_refuted_extension`), single vertices (`C46_refuted_single`). -/
theorem C46_exactly_partial (h : WUsable pg n S ω) (hnn : ∀ v, 1 ≤ v → v ≤ n → 0 ≤ ω v)
    {ops : List (WOp Rat)} (hl : ∀ op ∈ ops, op.Legal) (hx : ∀ op ∈ ops, op.Exact S n ω)
    (junk : Nat → Rat) (W : Rat) :
    ∃ pg1 pg2 cs, wruns ops pg = .ok pg1 ∧ pg1.listCliques junk W = .ok (pg2, cs) ∧ cs.Nodup ∧
      ∀ l, l ∈ cs ↔ IsCliqueList S n l ∧ 2 ≤ l.length ∧
        ∃ u, u ≠ 1 ∧ WFirst S n ω u l ∧ ReachedLast ω W u l := by
  obtain ⟨H, hF⟩ := h.fresh
  have hnn' := hF.pyok.nonneg hnn
  obtain ⟨pg1, H1, a1, a2, a3, _, a4⟩ := wruns_spec ops hF.pyok hl
  obtain ⟨a5, a6⟩ := a4 hnn' hx (hF.bounds.mcsOk hF.pyok.ok.ok.wf.str hnn')
    (fun l hl => by
      rw [← hF.pyok.weight hl]
      exact wbounds_spec hF.pyok.of hF.pyok.ok.ok.wf hF.bounds hnn' hl)
  obtain ⟨H2, cs, b1, _, _, b2, b3, b4⟩ := wlistCliques_spec a2 junk W
  obtain ⟨b5, b6⟩ := b4 (by
    intro u hu
    rw [a3.d, hF.d u hu, a3.V]
    exact Finset.sum_congr rfl (fun j _ => (a3.we u j).symm))
  refine ⟨pg1, _, cs, a1, b1, b2, ?_⟩
  intro l
  constructor
  · intro hm
    exact ⟨(b3 l hm).1, (b3 l hm).2, b5 l hm⟩
  · rintro ⟨h1, h2, u, h3, h4, h5⟩
    exact b6 (a2.nonneg hnn) a5 a6 l u h1 h2 h4 h3 h5

/-- **C46**: every clique with at least two vertices that weighs at least `W` and whose first
vertex is not vertex 1 contains a reported clique. -/
theorem C46_covers_partial (h : WUsable pg n S ω) (hnn : ∀ v, 1 ≤ v → v ≤ n → 0 ≤ ω v)
    {ops : List (WOp Rat)} (hl : ∀ op ∈ ops, op.Legal) (hx : ∀ op ∈ ops, op.Exact S n ω)
    (junk : Nat → Rat) (W : Rat) :
    ∃ pg1 pg2 cs, wruns ops pg = .ok pg1 ∧ pg1.listCliques junk W = .ok (pg2, cs) ∧
      ∀ l, IsCliqueList S n l → 2 ≤ l.length → ¬ WFirst S n ω 1 l → W ≤ weight ω l →
        ∃ l' ∈ cs, l' ⊆ l := by
  obtain ⟨H, hF⟩ := h.fresh
  obtain ⟨pg1, pg2, cs, a1, a2, _, a3⟩ := C46_exactly_partial h hnn hl hx junk W
  refine ⟨pg1, pg2, cs, a1, a2, ?_⟩
  intro l hcl h2 hf hW
  obtain ⟨u, hu⟩ := exists_wfirst S n ω (l := l) (by rintro rfl; simp at h2)
  obtain ⟨l', b1, b2, b3, b4, b5⟩ := exists_reached hcl h2 hu hW
  exact ⟨l', (a3 l').2 ⟨b1, b2, u, by rintro rfl; exact hf hu, b4, b5⟩, b3⟩

/-- **C46** for the cliques that weigh exactly `W`: with positive weights all of those with at
least two vertices are reported, unless their first vertex is vertex 1. -/
theorem C46_equal_partial (h : WUsable pg n S ω) (hnn : ∀ v, 1 ≤ v → v ≤ n → 0 < ω v)
    {ops : List (WOp Rat)} (hl : ∀ op ∈ ops, op.Legal) (hx : ∀ op ∈ ops, op.Exact S n ω)
    (junk : Nat → Rat) (W : Rat) :
    ∃ pg1 pg2 cs, wruns ops pg = .ok pg1 ∧ pg1.listCliques junk W = .ok (pg2, cs) ∧
      ∀ l, IsCliqueList S n l → 2 ≤ l.length → ¬ WFirst S n ω 1 l → weight ω l = W → l ∈ cs := by
  obtain ⟨pg1, pg2, cs, a1, a2, _, a3⟩ :=
    C46_exactly_partial h (fun v h1 h2 => le_of_lt (hnn v h1 h2)) hl hx junk W
  refine ⟨pg1, pg2, cs, a1, a2, ?_⟩
  intro l hcl h2 hf hW
  obtain ⟨u, hu⟩ := exists_wfirst S n ω (l := l) (by rintro rfl; simp at h2)
  refine (a3 l).2 ⟨hcl, h2, u, by rintro rfl; exact hf hu, hu, le_of_eq hW.symm, ?_⟩
  intro m _ hm
  have hperm : (u :: l.erase u).Perm l := (List.perm_cons_erase hu.1).symm
  have hpw : weight ω (u :: l.erase u) = weight ω l := (hperm.map ω).sum_eq
  have hsplit : weight ω (u :: l.erase u) = weight ω ((u :: l.erase u).take m) +
      weight ω ((u :: l.erase u).drop m) := by
    unfold weight
    rw [← List.sum_append, ← List.map_append, List.take_append_drop]
  have hpos : 0 < weight ω ((u :: l.erase u).drop m) := by
    unfold weight
    apply List.sum_pos
    · intro x hx
      obtain ⟨v, hv, rfl⟩ := List.mem_map.1 hx
      have := hcl.range v (hperm.subset (List.mem_of_mem_drop hv))
      exact hnn v this.1 this.2
    · intro h0
      have := congrArg List.length h0
      rw [List.length_map, List.length_drop, hperm.length_eq] at this
      simp at this
      omega
  rw [← hW, ← hpw, hsplit]
  exact lt_add_of_pos_right _ hpos

/-- The sample: what `all_cliques(3)` reports, and that the hypotheses of the theorems hold
after a history. -/
example : (∀ op ∈ [WOp.list (fun _ => 7) 1, .reset, .search Sample.byW (fun i => i) {}], op.Legal ∧
      op.Exact (ofPairs Sample.rows) 5 (nth ([2, 1/2, 3, 1, 10] : List Rat))) ∧
    (wruns [.list (fun _ => 7) 1, .reset, .search Sample.byW (fun i => i) {}] Sample.wkite >>=
      fun pg => pg.listCliques (fun _ => -1) 3 >>= fun x => .ok x.2) =
      .ok [[2, 3], [3, 4], [4, 5]] := by
  refine ⟨?_, by decide +kernel⟩
  intro op hop
  simp only [List.mem_cons, List.not_mem_nil, or_false] at hop
  rcases hop with rfl | rfl | rfl
  · exact ⟨trivial, trivial⟩
  · exact ⟨trivial, trivial⟩
  · refine ⟨fun _ => Sample.byW_perm _, fun l hl => ?_⟩
    have := weight_le (ω := nth ([2, 1/2, 3, 1, 10] : List Rat)) Sample.wkite_nonneg hl
    exact le_trans this (by decide +kernel)

/-- The cliques of the specification for that call: `[2, 3]` is one, as its first vertex is not
vertex 1. -/
example : ∃ l, IsCliqueList (ofPairs Sample.rows) 5 l ∧ 2 ≤ l.length ∧
    ¬ WFirst (ofPairs Sample.rows) 5 (nth ([2, 1/2, 3, 1, 10] : List Rat)) 1 l ∧
    weight (nth ([2, 1/2, 3, 1, 10] : List Rat)) l = 7/2 :=
  ⟨[2, 3], Sample.pair_clique (by decide) (by decide) (by decide) (by decide), by decide,
    fun h => absurd h.1 (by decide), by decide +kernel⟩

/-- **C46** is false: the cliques whose first vertex is vertex 1 are not reported.  Here
`all_cliques(2)` on a triangle of unit weights reports one edge of three. -/
theorem C46_refuted_first_vertex :
    ∃ (pg : PyNW Rat) (n : Nat) (S : SimpleGraph Nat) (ω : Nat → Rat),
    WUsable pg n S ω ∧
    (∀ v, 1 ≤ v → v ≤ n → 0 < ω v) ∧ ∃ cs l, (pg.listCliques (fun _ => 0) 2 >>= fun x =>
      .ok x.2) = .ok cs ∧ IsCliqueList S n l ∧ 2 ≤ l.length ∧ weight ω l = 2 ∧ l ∉ cs := by
  refine ⟨Sample.get (PyNW.new (R := Rat)) (PyNW.fromEdgelist true 64 [(1, 2), (1, 3), (2, 3)] 3 [1, 1, 1]), 3,
    ofPairs [(1, 2), (1, 3), (2, 3)], nth ([1, 1, 1] : List Rat),
    ⟨.edgelist (argLR := true) (cap := 64) (by decide) (by decide) (by decide +kernel),
      Sample.wkept (by decide +kernel), 1, 2, by decide, Or.inl (by decide)⟩,
    by decide +kernel, [[2, 3]], [1, 2], by decide +kernel,
    Sample.pair_clique (by decide) (by decide) (by decide) (by decide), by decide,
    by decide +kernel, by decide⟩

/-- **C46** is false: a clique which is heavy enough already without its last vertex is not
reported.  Here the clique `[2, 3, 4]` weighs 9/2 and `all_cliques(3)` reports `[2, 3]` and
`[3, 4]` only. -/
theorem C46_refuted_extension :
    ∃ (pg : PyNW Rat) (n : Nat) (S : SimpleGraph Nat) (ω : Nat → Rat),
    WUsable pg n S ω ∧
    (∀ v, 1 ≤ v → v ≤ n → 0 < ω v) ∧ ∃ cs l, (pg.listCliques (fun _ => 0) 3 >>= fun x =>
      .ok x.2) = .ok cs ∧ IsCliqueList S n l ∧ 2 ≤ l.length ∧ 1 ∉ l ∧ 3 ≤ weight ω l ∧
      l ∉ cs := by
  refine ⟨Sample.wkite, 5, _, _, Sample.wkite_usable, by decide +kernel,
    [[2, 3], [3, 4], [4, 5]], [2, 3, 4], by decide +kernel, ?_, by decide, by decide,
    by decide +kernel, by decide⟩
  refine ⟨by decide, by decide, ?_⟩
  intro x hx y hy hxy
  simp only [Set.mem_ofPred_eq, List.mem_cons, List.not_mem_nil, or_false] at hx hy
  refine ⟨hxy, ?_⟩
  rcases hx with rfl | rfl | rfl <;> rcases hy with rfl | rfl | rfl <;>
    first
      | exact absurd rfl hxy
      | exact Or.inl (by decide)
      | exact Or.inr (by decide)

/-- **C46** is false: single vertices are not reported, however heavy. -/
theorem C46_refuted_single :
    ∃ (pg : PyNW Rat) (n : Nat) (S : SimpleGraph Nat) (ω : Nat → Rat),
    WUsable pg n S ω ∧
    (∀ v, 1 ≤ v → v ≤ n → 0 < ω v) ∧ ∃ cs v, (pg.listCliques (fun _ => 0) 10 >>= fun x =>
      .ok x.2) = .ok cs ∧ IsCliqueList S n [v] ∧ v ≠ 1 ∧ 10 ≤ ω v ∧ [v] ∉ cs :=
  ⟨Sample.wkite, 5, _, _, Sample.wkite_usable, by decide +kernel, [[4, 5]], 5, by decide +kernel,
    Sample.single_clique (by decide) (by decide), by decide, by decide +kernel, by decide⟩

end CM
