import Verif.Lemmas.Greedy
import Verif.Lemmas.WGreedy
import Verif.Props.MaxClique
import Verif.Props.Weighted

/-!
# C118: a clique that is returned cannot be extended

`∀ v, ∃ u ∈ l, ¬ S.Adj u v` says that no vertex is adjacent to all the vertices of `l`.
-/

namespace CM

open Spec Graph NWG Sample

variable {pg : PyGraph} {n : Nat} {S : SimpleGraph Nat}

/-- A clique with one more vertex. -/
theorem extended {l : List Nat} (h : IsCliqueList S n l) {v : Nat} (hv : 1 ≤ v ∧ v ≤ n)
    (ha : ∀ u ∈ l, S.Adj u v) : ∃ l', IsCliqueList S n l' ∧ l'.Perm (v :: l) := by
  have hnd : (v :: l).Nodup := List.nodup_cons.2
    ⟨fun hm => (ha v hm).ne rfl, h.increasing.imp fun hlt => Nat.ne_of_lt hlt⟩
  have hp := List.perm_insertionSort (· ≤ ·) (v :: l)
  refine ⟨(v :: l).insertionSort (· ≤ ·), ⟨?_, ?_, ?_⟩, hp⟩
  · have h1 := List.pairwise_insertionSort (· ≤ ·) (v :: l)
    have h2 : ((v :: l).insertionSort (· ≤ ·)).Pairwise (· ≠ ·) := hp.nodup_iff.2 hnd
    exact (h1.and h2).imp fun ⟨a, b⟩ => by omega
  · intro x hx
    rcases List.mem_cons.1 (hp.mem_iff.1 hx) with rfl | hx
    · exact hv
    · exact h.range x hx
  · intro x hx y hy hxy
    rcases List.mem_cons.1 (hp.mem_iff.1 hx) with rfl | hx'
    · rcases List.mem_cons.1 (hp.mem_iff.1 hy) with rfl | hy
      · exact absurd rfl hxy
      · exact (ha y hy).symm
    · rcases List.mem_cons.1 (hp.mem_iff.1 hy) with rfl | hy'
      · exact ha x (by assumption)
      · exact h.clique (by assumption) hy' hxy

/-- **C118** for searches with `use_dfs=True` (the default), no time limit and bounds that leave room
for a maximum clique, on a graph that was just loaded: what is returned cannot be extended. -/
theorem C118_exact (h : Usable pg n S) {srt : List VData → List VData} (hsrt : ∀ l, (srt l).Perm l)
    (a : PyGraph.Args) (hd : a.useDfs = true) (ht : a.timeLimit = none)
    (hu : ∀ l, IsCliqueList S n l → l.length ≤ a.upperBound)
    (hlb : a.lowerBound = 1 ∨
      (1 ≤ a.lowerBound ∧ ∃ l, IsCliqueList S n l ∧ a.lowerBound < l.length)) :
    ∃ pg' l, pg.getMaxClique srt a = .ok (pg', .ret l) ∧ IsCliqueList S n l ∧
      ∀ v, 1 ≤ v → v ≤ n → ∃ u ∈ l, ¬ S.Adj u v := by
  obtain ⟨pg', l, h1, h2, h3⟩ := C10_untimed_exact h hsrt a hd ht hu hlb
  refine ⟨pg', l, h1, h2, fun v h4 h5 => ?_⟩
  by_contra hno
  obtain ⟨l', h6, h7⟩ := extended h2 ⟨h4, h5⟩ fun u hu => by
    by_contra hna
    exact hno ⟨u, hu, hna⟩
  have := h3 l' h6
  rw [h7.length_eq, List.length_cons] at this
  omega

example : ∃ pg' l, kite.getMaxClique byDegree {} = .ok (pg', .ret l) ∧
    IsCliqueList (ofPairs rows) 5 l ∧ ∀ v, 1 ≤ v → v ≤ 5 → ∃ u ∈ l, ¬ (ofPairs rows).Adj u v :=
  C118_exact kite_usable (fun _ => byDegree_perm _) {} rfl rfl
    (fun _ hl => Nat.le_trans hl.length_le (by decide)) (Or.inl rfl)

/-- **C118** for searches with the heuristic alone, on a graph that was just loaded.  The full property:
what is returned cannot be extended.  Proved: what is returned is a clique, and it is a single vertex,
or a vertex that could be added to it comes before all its members in the order by degree and then by
number.  Missing, because false (`C118_refuted`): that there is no such vertex. -/
theorem C118_heuristic_partial (h : Usable pg n S) {srt : List VData → List VData}
    (hsrt : ∀ l, (srt l).Perm l) {a : PyGraph.Args} (hd : a.useDfs = false) {pg' : PyGraph}
    {l : List Nat} (hr : pg.getMaxClique srt a = .ok (pg', .ret l)) :
    l.length = 1 ∨ ∀ v, (∀ u ∈ l, S.Adj u v) → First S n v (v :: l) := by
  obtain ⟨G, hF⟩ := h.fresh
  obtain ⟨pg2, G2, a1, _, a3⟩ := heur_search hF.pyok hsrt hd
  rw [hr] at a1
  injection a1 with a1
  injection a1 with _ a1
  have hst : l = stored G2 := by
    by_cases hlt : a.lowerBound > (stored G2).length
    · rw [if_pos hlt] at a1; cases a1
    · rw [if_neg hlt] at a1
      injection a1 with a1
  rw [hst]
  rcases a3 with a3 | a3
  · exact Or.inl (a3 ▸ hF.stored)
  · exact Or.inr a3

/-- **C118** for searches with the heuristic alone, after any history that returned `l`: such a search
returns `l` again, or a list as in `C118_heuristic_partial`. -/
theorem C118_after_partial (h : Usable pg n S) {ops : List Op} (hl : ∀ op ∈ ops, op.Legal)
    {srt : List VData → List VData} (hsrt : ∀ l, (srt l).Perm l) {a b : PyGraph.Args}
    (hd : a.useDfs = false) {pg1 pg2 pg3 : PyGraph} {l l' : List Nat} (h1 : runs ops pg = .ok pg1)
    (h2 : pg1.getMaxClique srt b = .ok (pg2, .ret l))
    (h3 : pg2.getMaxClique srt a = .ok (pg3, .ret l')) :
    l' = l ∨ ∀ v, (∀ u ∈ l', S.Adj u v) → First S n v (v :: l') := by
  have ret : ∀ {k : Nat} {s t : List Nat} {x y : PyGraph},
      (Except.ok (x, PyRes.ret t) : M _) = .ok (y, if k > s.length then .raise else .ret s) →
      x = y ∧ t = s := by
    intro k s t x y he
    injection he with he
    injection he with h0 he
    refine ⟨h0, ?_⟩
    by_cases hlt : k > s.length
    · rw [if_pos hlt] at he; cases he
    · rw [if_neg hlt] at he
      injection he with he
  obtain ⟨G, hF⟩ := h.fresh
  obtain ⟨pg1', G1, a1, a2, _⟩ := runs_spec ops hF.pyok hl
  rw [h1] at a1
  cases a1
  obtain ⟨pg2', G2, b1, b2, _⟩ := search_any a2 hsrt b
  rw [h2] at b1
  obtain ⟨rfl, rfl⟩ := ret b1
  obtain ⟨pg3', G3, c1, _, c3⟩ := heur_search b2 hsrt hd
  rw [h3] at c1
  obtain ⟨rfl, rfl⟩ := ret c1
  exact c3

/-- A graph on which the heuristic does not find the triangle 1, 3, 5. -/
def looseRows : List (Nat × Nat) :=
  [(1, 3), (1, 4), (1, 5), (2, 3), (2, 4), (3, 5), (3, 6), (4, 6)]

/-- The object for `looseRows`. -/
def loose : PyGraph := get PyGraph.new (PyGraph.fromEdgelist true 400 looseRows 6)

theorem loose_usable : Usable loose 6 (ofPairs looseRows) := by
  refine ⟨.edgelist (argLR := true) (cap := 400) (by decide) (by decide) (by decide +kernel), ?_,
    1, 3, by decide, Or.inl (by decide)⟩
  intro G hG
  have : (loose.G.map fun G => G.dangling) = some false := by decide +kernel
  rw [hG] at this
  simpa using this

theorem loose_adj : ∀ u ∈ [1, 3], (ofPairs looseRows).Adj u 5 := by
  intro u hu
  rcases List.mem_cons.1 hu with rfl | hu
  · exact ⟨by decide, Or.inl (by decide)⟩
  · rw [List.mem_singleton.1 hu]
    exact ⟨by decide, Or.inl (by decide)⟩

example : ∃ pg', loose.getMaxClique byDegree { useDfs := false } = .ok (pg', .ret [1, 3]) ∧
    First (ofPairs looseRows) 6 5 [5, 1, 3] := by
  have hx : ((loose.getMaxClique byDegree { useDfs := false }).map fun x => x.2) =
      .ok (.ret [1, 3]) := by decide +kernel
  cases hc : loose.getMaxClique byDegree { useDfs := false } with
  | error e => rw [hc] at hx; cases hx
  | ok x =>
    obtain ⟨pg', r⟩ := x
    rw [hc] at hx
    injection hx with hx
    dsimp only at hx
    subst hx
    refine ⟨pg', rfl, ?_⟩
    rcases C118_heuristic_partial loose_usable (fun _ => byDegree_perm _) rfl hc with h | h
    · cases h
    · refine h 5 fun u hu => ?_
      exact loose_adj u hu

example : (runs [.search byDegree {}, .reset] kite >>= fun x =>
      x.getMaxClique byDegree { useHeuristic := false, useDfs := false } >>= fun y =>
        (y.1.getMaxClique byDegree { useDfs := false }).map fun z => (y.2, z.2)) =
    .ok (.ret [1, 2, 3, 4], .ret [1, 2, 3, 4]) := by
  decide +kernel

/-- **C118** is false of the heuristic alone: it returns vertices 1 and 3, and vertex 5 is adjacent to
both; and on a graph with one edge it returns one of its ends. -/
theorem C118_refuted : Usable loose 6 (ofPairs looseRows) ∧
    ((loose.getMaxClique byDegree { useDfs := false }).map fun x => x.2) = .ok (.ret [1, 3]) ∧
    (∀ u ∈ [1, 3], (ofPairs looseRows).Adj u 5) ∧
    (PyGraph.fromEdgelist true 400 [(1, 2)] 2 >>= fun pg =>
      (pg.getMaxClique byDegree { useDfs := false }).map fun x => x.2) = .ok (.ret [1]) := by
  refine ⟨loose_usable, ?_, ?_, ?_⟩
  · decide +kernel
  · exact loose_adj
  · decide +kernel

/-- **C118** for weighted graphs, with positive weights that are added exactly: under the hypotheses of
C36, what is returned cannot be extended.  With weights that are zero it can (`C118_refuted_zero`). -/
theorem C118_weighted {pg : PyNW Rat} {ω : Nat → Rat} (h : WUsable pg n S ω)
    (hpos : ∀ v, 1 ≤ v → v ≤ n → 0 < ω v)
    {srt : List (WData Rat) → List (WData Rat)} (hsrt : ∀ l, (srt l).Perm l) (junk : Nat → Rat)
    {a : PyNW.Args Rat} (hd : a.useDfs = true) (ha : 0 ≤ a.lowerBound)
    (hu : ∀ l, IsCliqueList S n l → weight ω l ≤ a.upperBound)
    (hex : ∃ l, IsCliqueList S n l ∧ 2 ≤ l.length ∧ a.lowerBound < weight ω l) :
    ∃ pg' l, pg.getMaxClique srt junk a = .ok (pg', .ret l) ∧ IsCliqueList S n l ∧
      ∀ v, 1 ≤ v → v ≤ n → ∃ u ∈ l, ¬ S.Adj u v := by
  obtain ⟨pg', l, h1, h2, h3, h4⟩ :=
    C36_exact_partial h (fun v a b => le_of_lt (hpos v a b)) hsrt junk hd ha hu hex
  refine ⟨pg', l, h1, h2, fun v h5 h6 => ?_⟩
  by_contra hno
  obtain ⟨l', h7, h8⟩ := extended h2 ⟨h5, h6⟩ fun u hu => by
    by_contra hna
    exact hno ⟨u, hu, hna⟩
  have hne : l ≠ [] := by
    rintro rfl
    have : weight ω [] = 0 := rfl
    rw [this] at h3
    exact absurd (lt_of_le_of_lt ha h3) (lt_irrefl _)
  have h9 := h4 l' h7 (by
    rintro w rfl
    have := h8.length_eq
    rw [List.length_cons, List.length_cons] at this
    exact absurd (List.length_eq_zero_iff.1 (Nat.succ.inj this).symm) hne)
  have e : weight ω l' = ω v + weight ω l := by
    unfold weight
    rw [(h8.map ω).sum_eq]
    rfl
  have := hpos v h5 h6
  rw [e] at h9
  linarith

example : ∃ pg' l, wkite.getMaxClique byW (fun i => i) {} = .ok (pg', .ret l) ∧
    IsCliqueList (ofPairs rows) 5 l ∧ ∀ v, 1 ≤ v → v ≤ 5 → ∃ u ∈ l, ¬ (ofPairs rows).Adj u v := by
  refine C118_weighted wkite_usable (by decide +kernel) byW_perm (fun i => i) rfl
    (by decide +kernel) ?_ ?_
  · intro l hl
    exact le_trans (weight_le (ω := nth ([2, 1/2, 3, 1, 10] : List Rat)) wkite_nonneg hl)
      (by decide +kernel)
  · exact ⟨[4, 5], Sample.pair_clique (by decide) (by decide) (by decide) (by decide), by decide,
      by decide +kernel⟩

/-- A graph with a vertex of weight 0 that is adjacent to the heaviest clique. -/
def zeroRows : List (Nat × Nat) := [(1, 2), (1, 3), (2, 3), (1, 4), (2, 5)]

/-- The object for `zeroRows`, with weights 2, 2, 0, 1, 1. -/
def zeroed : PyNW Rat := get (PyNW.new (R := Rat))
  (PyNW.fromEdgelist true 400 zeroRows 5 [2, 2, 0, 1, 1])

/-- **C118** is false of complete weighted searches if a weight is zero: vertices 1 and 2 are returned,
and vertex 3, which weighs nothing, is adjacent to both. -/
theorem C118_refuted_zero :
    WUsable zeroed 5 (ofPairs zeroRows) (nth ([2, 2, 0, 1, 1] : List Rat)) ∧
    ((zeroed.getMaxClique byW (fun _ => 0) {}).map fun x => x.2) = .ok (.ret [1, 2]) ∧
    ∀ u ∈ [1, 2], (ofPairs zeroRows).Adj u 3 := by
  refine ⟨⟨.edgelist (argLR := true) (cap := 400) (by decide) (by decide) (by decide +kernel),
    wkept (by decide +kernel), 1, 2, by decide, by decide⟩, by decide +kernel, ?_⟩
  intro u hu
  rcases List.mem_cons.1 hu with rfl | hu
  · exact ⟨by decide, by decide⟩
  · rw [List.mem_singleton.1 hu]
    exact ⟨by decide, by decide⟩

/-- **C118** for weighted searches with the heuristic alone, on a graph that was just loaded.  The full
property: what is returned cannot be extended.  Proved: what is returned has a single entry, or a vertex
that could be added comes before all its members in the order by the weight of the neighbourhood and then
by number.  Missing, because false (`C118_refuted_weighted`): that there is no such vertex. -/
theorem C118_weighted_heuristic_partial {pg : PyNW Rat} {ω : Nat → Rat} (h : WUsable pg n S ω)
    {srt : List (WData Rat) → List (WData Rat)} (hsrt : ∀ l, (srt l).Perm l) (junk : Nat → Rat)
    {a : PyNW.Args Rat} (hd : a.useDfs = false) {pg' : PyNW Rat} {l : List Nat}
    (hr : pg.getMaxClique srt junk a = .ok (pg', .ret l)) :
    l.length = 1 ∨ ∀ v, (∀ u ∈ l, S.Adj u v) → WFirst S n ω v (v :: l) := by
  obtain ⟨H, hF⟩ := EX.wusable_fresh h (EX.xw_rat n ω).toXW
  obtain ⟨pg2, l2, W, a1, a2⟩ := wheur_search hF.pyok hF.d hsrt junk hd
  rw [hr] at a1
  injection a1 with a1
  injection a1 with _ a1
  have hl : l = l2 := by
    by_cases hlt : a.lowerBound > W
    · rw [if_pos hlt] at a1; cases a1
    · rw [if_neg hlt] at a1
      injection a1 with a1
  rw [hl]
  rcases a2 with a2 | a2
  · left
    rw [a2, hF.stored]
    rfl
  · exact Or.inr a2

/-- The same after any history that returned `l`: the search returns `l` again, or a list as in
`C118_weighted_heuristic_partial`. -/
theorem C118_weighted_after_partial {pg : PyNW Rat} {ω : Nat → Rat} (h : WUsable pg n S ω)
    {ops : List (WOp Rat)} (hl : ∀ op ∈ ops, op.Legal)
    {srt : List (WData Rat) → List (WData Rat)} (hsrt : ∀ l, (srt l).Perm l) (junk : Nat → Rat)
    {a b : PyNW.Args Rat} (hd : a.useDfs = false) {pg1 pg2 pg3 : PyNW Rat} {l l' : List Nat}
    (h1 : wruns ops pg = .ok pg1) (h2 : pg1.getMaxClique srt junk b = .ok (pg2, .ret l))
    (h3 : pg2.getMaxClique srt junk a = .ok (pg3, .ret l')) :
    l' = l ∨ ∀ v, (∀ u ∈ l', S.Adj u v) → WFirst S n ω v (v :: l') := by
  have ret : ∀ {k W : Rat} {s t : List Nat} {x y : PyNW Rat},
      (Except.ok (x, PyRes.ret t) : M _) = .ok (y, if k > W then .raise else .ret s) →
      x = y ∧ t = s := by
    intro k W s t x y he
    injection he with he
    injection he with h0 he
    refine ⟨h0, ?_⟩
    by_cases hlt : k > W
    · rw [if_pos hlt] at he; cases he
    · rw [if_neg hlt] at he
      injection he with he
  obtain ⟨H, hF⟩ := EX.wusable_fresh h (EX.xw_rat n ω).toXW
  obtain ⟨pg1', H1, a1, a2, a3, _⟩ := wruns_spec ops hF.pyok hl
  rw [h1] at a1
  cases a1
  obtain ⟨pg2', H2, b1, b2, b3, _⟩ := wsearch_spec a2 hsrt junk b
  rw [h2] at b1
  obtain ⟨rfl, rfl⟩ := ret b1
  have F := a3.trans b3
  obtain ⟨pg3', l3, W, c1, c2⟩ := wheur_search b2 (fun v hv => by
    rw [F.d, F.V, hF.d v hv]
    exact Finset.sum_congr rfl fun j _ => (F.we v j).symm) hsrt junk hd
  rw [h3] at c1
  obtain ⟨rfl, rfl⟩ := ret c1
  exact c2

/-- A weighted graph on which the heuristic does not find the triangle 1, 2, 3. -/
def wlooseRows : List (Nat × Nat) := [(1, 2), (1, 3), (1, 4), (2, 3), (2, 5), (4, 5)]

/-- The object for `wlooseRows`, with weights 2, 4, 1, 3, 1. -/
def wloose : PyNW Rat := get (PyNW.new (R := Rat))
  (PyNW.fromEdgelist true 400 wlooseRows 5 [2, 4, 1, 3, 1])

theorem wloose_usable : WUsable wloose 5 (ofPairs wlooseRows) (nth ([2, 4, 1, 3, 1] : List Rat)) :=
  ⟨.edgelist (argLR := true) (cap := 400) (by decide) (by decide) (by decide +kernel),
    wkept (by decide +kernel), 1, 2, by decide, Or.inl (by decide)⟩

theorem wloose_adj : ∀ u ∈ [1, 2], (ofPairs wlooseRows).Adj u 3 := by
  intro u hu
  rcases List.mem_cons.1 hu with rfl | hu
  · exact ⟨by decide, Or.inl (by decide)⟩
  · rw [List.mem_singleton.1 hu]
    exact ⟨by decide, Or.inl (by decide)⟩

/-- **C118** is false of the weighted heuristic alone, with positive weights: it returns vertices 1 and
2, and vertex 3 is adjacent to both. -/
theorem C118_refuted_weighted :
    WUsable wloose 5 (ofPairs wlooseRows) (nth ([2, 4, 1, 3, 1] : List Rat)) ∧
    ((wloose.getMaxClique byW (fun _ => 0) { useDfs := false }).map fun x => x.2) =
      .ok (.ret [1, 2]) ∧
    ∀ u ∈ [1, 2], (ofPairs wlooseRows).Adj u 3 := by
  refine ⟨wloose_usable, ?_, wloose_adj⟩
  decide +kernel

example : WFirst (ofPairs wlooseRows) 5 (nth ([2, 4, 1, 3, 1] : List Rat)) 3 [3, 1, 2] := by
  have hx := C118_refuted_weighted.2.1
  cases hc : wloose.getMaxClique byW (fun _ => 0) { useDfs := false } with
  | error e => rw [hc] at hx; cases hx
  | ok x =>
    obtain ⟨pg', r⟩ := x
    rw [hc] at hx
    injection hx with hx
    dsimp only at hx
    subst hx
    rcases C118_weighted_heuristic_partial wloose_usable byW_perm _ rfl hc with h | h
    · cases h
    · exact h 3 wloose_adj

end CM
