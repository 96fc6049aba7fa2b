import Verif.Props.Largest

/-!
# Properties: the two sets exchanged

To match a set A with a set B is to match B with A: every correspondence read the other way round.
-/

namespace CM

open Spec Graph Sample

variable {M N : Nat} {S S' : SimpleGraph Nat} {pg pg' : PyGraph}

/-- A matching read the other way round. -/
theorem IsMatching.mirror {ps : List (Nat × Nat)} (h : IsMatching M N ps) :
    IsMatching N M (ps.map Prod.swap) where
  range p hp := by
    obtain ⟨q, hq, rfl⟩ := List.mem_map.1 hp
    exact (h.range q hq).symm
  first := by
    rw [List.map_map]
    exact h.second
  second := by
    rw [List.map_map]
    exact h.first

/-- The longest correspondence of a graph is not longer than that of a graph that contains its
mirror image. -/
theorem mirror_le (hA : Apart M N S) (hA' : Apart N M S') (h : Usable pg (M * N) S)
    (h' : Usable pg' (N * M) S') (hu : M ≤ 65535 ∨ N ≤ 65535)
    (hm : ∀ i1 i2 j1 j2, i1 < M → i2 < M → j1 < N → j2 < N →
      S.Adj (pairId N i1 j1) (pairId N i2 j2) → S'.Adj (pairId M j1 i1) (pairId M j2 i2))
    {srt srt' : List VData → List VData} (hsrt : ∀ l, (srt l).Perm l)
    (hsrt' : ∀ l, (srt' l).Perm l) {q q' : PyGraph} {f s f' s' : List Nat}
    (hq : pg.getCorrespondence srt N {} = .ok (q, .ret (f, s)))
    (hq' : pg'.getCorrespondence srt' M {} = .ok (q', .ret (f', s'))) : f.length ≤ f'.length := by
  obtain ⟨a, b, c, h1, h2, h3, ⟨l, h4, h5⟩, _⟩ := largest_of (R := fun _ _ _ _ => False) hA h hu
    (fun _ _ _ _ _ _ _ _ _ _ h => h.elim) hsrt
  rw [hq] at h1
  cases h1
  obtain ⟨a, b, c, g1, _, _, _, g6⟩ := largest_of (R := fun j1 j2 i1 i2 =>
    S'.Adj (pairId M j1 i1) (pairId M j2 i2)) hA' h' hu.symm
    (fun _ _ _ _ _ _ _ _ _ _ h => h) hsrt'
  rw [hq'] at g1
  cases g1
  have := g6 _ (IsMatching.mirror h3) (by
    intro p hp q hq hne
    obtain ⟨p, kp, rfl⟩ := List.mem_map.1 hp
    obtain ⟨q, kq, rfl⟩ := List.mem_map.1 hq
    have hpr := h3.range p kp
    have hqr := h3.range q kq
    refine hm _ _ _ _ hpr.1 hqr.1 hpr.2 hqr.2 ?_
    have mp : pairId N p.1 p.2 ∈ l := by rw [← h5]; exact List.mem_map.2 ⟨p, kp, rfl⟩
    have mq : pairId N q.1 q.2 ∈ l := by rw [← h5]; exact List.mem_map.2 ⟨q, kq, rfl⟩
    refine h4.clique mp mq ?_
    intro he
    obtain ⟨a, b⟩ := pairId_inj hpr.2 hqr.2 he
    exact hne (by rw [Prod.ext a b]))
  rw [List.length_map, List.length_zip, ← h2, Nat.min_self] at this
  exact this

/-! ## Condition functions alone -/

/-- **C112** for `build_edges_condition_only`, any condition function: with the sets exchanged, and
the arguments of the function too, the graph is the mirror image. -/
theorem C112_condition_graph (hb : M * N < 2 ^ 27) (c : Nat → Nat → Nat → Nat → Bool)
    (argLR argLR' : Bool) (cap cap' : Nat) :
    ∃ pg pg' S S', buildCondition argLR cap PyGraph.new M N c = .ok pg ∧
      buildCondition argLR' cap' PyGraph.new N M (fun j1 j2 i1 i2 => c i1 i2 j1 j2) = .ok pg' ∧
      Loaded pg (M * N) S ∧ Loaded pg' (N * M) S' ∧
      ∀ i1 i2 j1 j2, i1 < M → i2 < M → j1 < N → j2 < N →
        (S.Adj (pairId N i1 j1) (pairId N i2 j2) ↔
          S'.Adj (pairId M j1 i1) (pairId M j2 i2)) := by
  obtain ⟨pg, a1, a2⟩ := buildCondition_spec hb c argLR cap
  obtain ⟨pg', b1, b2⟩ := buildCondition_spec (M := N) (N := M) (by rw [Nat.mul_comm]; exact hb)
    (fun j1 j2 i1 i2 => c i1 i2 j1 j2) argLR' cap'
  refine ⟨pg, pg', _, _, a1, b1, a2, b2, fun i1 i2 j1 j2 h1 h2 h3 h4 => ?_⟩
  rw [corrGraph_adj h1 h2 h3 h4, corrGraph_adj h3 h4 h1 h2]
  constructor <;> rintro ⟨x, y, z⟩ <;> exact ⟨y, x, z⟩

/-- **C112** for `build_edges_condition_only`: `get_correspondence()` matches as many elements of the
first set with elements of the second as the other way round. -/
theorem C112_condition {c : Nat → Nat → Nat → Nat → Bool} {argLR argLR' : Bool} {cap cap' : Nat}
    (hb : M * N < 2 ^ 27) (he : buildCondition argLR cap PyGraph.new M N c = .ok pg)
    (he' : buildCondition argLR' cap' PyGraph.new N M (fun j1 j2 i1 i2 => c i1 i2 j1 j2) = .ok pg')
    (h : Usable pg (M * N) S) (h' : Usable pg' (N * M) S') (hu : M ≤ 65535 ∨ N ≤ 65535)
    {srt srt' : List VData → List VData} (hsrt : ∀ l, (srt l).Perm l)
    (hsrt' : ∀ l, (srt' l).Perm l) :
    ∃ q q' f s f' s', pg.getCorrespondence srt N {} = .ok (q, .ret (f, s)) ∧
      pg'.getCorrespondence srt' M {} = .ok (q', .ret (f', s')) ∧ f.length = f'.length := by
  obtain ⟨p, p', T, T', a1, b1, a2, b2, hT⟩ := C112_condition_graph (M := M) (N := N) hb c argLR
    argLR' cap cap'
  rw [he] at a1
  cases a1
  rw [he'] at b1
  cases b1
  have hA : Apart M N S := by
    obtain ⟨_, e1, e2⟩ := buildCondition_spec hb c argLR cap
    rw [he] at e1
    cases e1
    rw [(h.loaded.unique e2).2]
    exact corrGraph_apart
  have hA' : Apart N M S' := by
    obtain ⟨_, e1, e2⟩ := buildCondition_spec (M := N) (N := M) (by rw [Nat.mul_comm]; exact hb)
      (fun j1 j2 i1 i2 => c i1 i2 j1 j2) argLR' cap'
    rw [he'] at e1
    cases e1
    rw [(h'.loaded.unique e2).2]
    exact corrGraph_apart
  obtain ⟨_, rfl⟩ := h.loaded.unique a2
  obtain ⟨_, rfl⟩ := h'.loaded.unique b2
  obtain ⟨q, f, s, h1, _⟩ := largest_of (R := fun _ _ _ _ => False) hA h hu
    (fun _ _ _ _ _ _ _ _ _ _ h => h.elim) hsrt
  obtain ⟨q', f', s', h1', _⟩ := largest_of (R := fun _ _ _ _ => False) hA' h' hu.symm
    (fun _ _ _ _ _ _ _ _ _ _ h => h.elim) hsrt'
  refine ⟨q, q', f, s, f', s', h1, h1', Nat.le_antisymm ?_ ?_⟩
  · exact mirror_le hA hA' h h' hu (fun i1 i2 j1 j2 a b c d => (hT i1 i2 j1 j2 a b c d).1) hsrt
      hsrt' h1 h1'
  · exact mirror_le hA' hA h' h hu.symm
      (fun i1 i2 j1 j2 a b c d => (hT j1 j2 i1 i2 c d a b).2) hsrt' hsrt h1' h1

/-! ## Distances -/

/-- **C112** for `build_edges` (partial: only if the answers are right; see `C112_refuted`): with the
sets exchanged, the answer is at least as long, if all distances in the first answer agree within
the tolerance. -/
theorem C112_metric_partial {argLR argLR' : Bool} {cap cap' : Nat}
    {srt1 srt2 srt3 srt4 : List (PairDist Int) → List (PairDist Int)} {ε : Int}
    {d1 d2 : Nat → Nat → Int} {sym1 sym2 : Bool} (hb : M * N < 2 ^ 27) (hs1 : Sorts srt1)
    (hs2 : Sorts srt2) (hs3 : Sorts srt3) (hs4 : Sorts srt4)
    (hsym1 : sym1 = true → ∀ i j, d1 i j = d1 j i) (hsym2 : sym2 = true → ∀ i j, d2 i j = d2 j i)
    (he : buildMetric argLR cap PyGraph.new srt1 srt2 M N (intWindow ε) d1 sym1 d2 sym2 = .ok pg)
    (he' : buildMetric argLR' cap' PyGraph.new srt3 srt4 N M (intWindow ε) d2 sym2 d1 sym1 =
      .ok pg')
    (h : Usable pg (M * N) S) (h' : Usable pg' (N * M) S') (hu : M ≤ 65535 ∨ N ≤ 65535)
    {srt srt' : List VData → List VData} (hsrt : ∀ l, (srt l).Perm l)
    (hsrt' : ∀ l, (srt' l).Perm l) :
    ∃ q q' f s f' s', pg.getCorrespondence srt N {} = .ok (q, .ret (f, s)) ∧
      pg'.getCorrespondence srt' M {} = .ok (q', .ret (f', s')) ∧
      (Consistent (fun i1 i2 j1 j2 => |d1 i1 i2 - d2 j1 j2| < ε) (f.zip s) →
        f.length ≤ f'.length) ∧
      (Consistent (fun j1 j2 i1 i2 => |d2 j1 j2 - d1 i1 i2| < ε) (f'.zip s') →
        f'.length ≤ f.length) := by
  have hb' : N * M < 2 ^ 27 := by rw [Nat.mul_comm]; exact hb
  obtain ⟨q, f, s, a1, a2, a3, a4⟩ := C52_largest_exact hb hs1 hs2 hsym1 hsym2 he h hu hsrt
  obtain ⟨q', f', s', b1, b2, b3, b4⟩ := C52_largest_exact hb' hs3 hs4 hsym2 hsym1 he' h' hu.symm
    hsrt'
  refine ⟨q, q', f, s, f', s', a1, b1, fun hc => ?_, fun hc => ?_⟩
  · have := b4 _ (IsMatching.mirror a3) (by
      intro p hp q hq hne
      obtain ⟨p, kp, rfl⟩ := List.mem_map.1 hp
      obtain ⟨q, kq, rfl⟩ := List.mem_map.1 hq
      have := hc p kp q kq (fun e => hne (by rw [e]))
      dsimp only at this
      rw [abs_sub_comm] at this
      exact this)
    rwa [List.length_map, List.length_zip, ← a2, Nat.min_self] at this
  · have := a4 _ (IsMatching.mirror b3) (by
      intro p hp q hq hne
      obtain ⟨p, kp, rfl⟩ := List.mem_map.1 hp
      obtain ⟨q, kq, rfl⟩ := List.mem_map.1 hq
      have := hc p kp q kq (fun e => hne (by rw [e]))
      dsimp only at this
      rw [abs_sub_comm] at this
      exact this)
    rwa [List.length_map, List.length_zip, ← b2, Nat.min_self] at this

/-- **C112** is false of `build_edges`: the points 0, 1, 5 of a line match all of 0, 3, 7 with
tolerance 1 (wrongly, see `C30_refuted`), and two of them the other way round. -/
theorem C112_refuted :
    (buildMetric true 200 PyGraph.new byDist byDist 3 3 (intWindow 1) (onLine [0, 1, 5]) true
        (onLine [0, 3, 7]) true >>= fun pg =>
      pg.getCorrespondence byDegree 3 {} >>= fun x => .ok x.2) =
        .ok (.ret ([0, 1, 2], [0, 1, 2])) ∧
    (buildMetric true 200 PyGraph.new byDist byDist 3 3 (intWindow 1) (onLine [0, 3, 7]) true
        (onLine [0, 1, 5]) true >>= fun pg =>
      pg.getCorrespondence byDegree 3 {} >>= fun x => .ok x.2) = .ok (.ret ([0, 1], [1, 0])) := by
  decide +kernel

/-! ## Examples -/

namespace Sample

/-- The points of `line`, exchanged. -/
def enil : PyGraph :=
  get PyGraph.new (buildMetric true 400 PyGraph.new byDist byDist 3 3 (intWindow 1)
    (onLine [10, 12, 15]) true (onLine [0, 2, 5]) true)

theorem enil_eq : buildMetric true 400 PyGraph.new byDist byDist 3 3 (intWindow 1)
    (onLine [10, 12, 15]) true (onLine [0, 2, 5]) true = .ok enil := by decide +kernel

theorem enil_usable : ∃ S, Usable enil 9 S := by
  obtain ⟨pg, S, e1, e2, e3⟩ := C29_exact (argLR := true) (cap := 400) (ε := 1) (M := 3) (N := 3)
    (by decide) (by decide) (by decide) (by decide) byDist_sorts byDist_sorts
    (sym1 := true) (sym2 := true)
    (fun _ => onLine_symm [10, 12, 15]) (fun _ => onLine_symm [0, 2, 5])
  rw [enil_eq] at e1
  cases e1
  refine ⟨S, e2, ?_, _, _, e3 0 1 0 1 (by decide) (by decide) (by decide) (by decide) (by decide)
    (by decide) (by decide)⟩
  intro G hG
  have : (enil.G.map fun G => G.dangling) = some false := by decide +kernel
  rw [hG] at this
  simpa using this

/-- A condition function that is not symmetric in anything: "the difference grows". -/
def grows (i1 i2 j1 j2 : Nat) : Bool := decide (j2 + i1 ≥ i2 + j1)

def growing (M N : Nat) (c : Nat → Nat → Nat → Nat → Bool) : PyGraph :=
  get PyGraph.new (buildCondition true 400 PyGraph.new M N c)

theorem growing_usable {M N : Nat} {c : Nat → Nat → Nat → Nat → Bool} (hb : M * N < 2 ^ 27)
    (he : buildCondition true 400 PyGraph.new M N c = .ok (growing M N c))
    (hd : ((growing M N c).G.map fun G => G.dangling) = some false) (hM : 1 < M) (hN : 1 < N)
    (hc : c 0 1 0 1 = true) : ∃ S, Usable (growing M N c) (M * N) S := by
  obtain ⟨pg, e1, e2⟩ := buildCondition_spec hb c true 400
  rw [he] at e1
  cases e1
  refine ⟨_, e2, ?_, pairId N 0 0, pairId N 1 1, ?_⟩
  · intro G hG
    rw [hG] at hd
    simpa using hd
  · rw [corrGraph_adj (by omega) (by omega) (by omega) (by omega)]
    exact ⟨by decide, by decide, Or.inl hc⟩

end Sample

/-- The hypotheses of `C112_metric_partial` are met, both answers are right, and have length 3. -/
example : (∃ S S', Usable line 9 S ∧ Usable enil 9 S') ∧
    (line.getCorrespondence byDegree 3 {} >>= fun x => .ok x.2) =
      .ok (.ret ([0, 1, 2], [0, 1, 2])) ∧
    (enil.getCorrespondence byDegree 3 {} >>= fun x => .ok x.2) =
      .ok (.ret ([0, 1, 2], [0, 1, 2])) := by
  obtain ⟨S, h⟩ := line_usable
  obtain ⟨S', h'⟩ := enil_usable
  exact ⟨⟨S, S', h, h'⟩, by decide +kernel, by decide +kernel⟩

/-- The hypotheses of `C112_condition` are met by sets of different sizes. -/
example : (∃ S S', Usable (growing 2 3 grows) (2 * 3) S ∧
      Usable (growing 3 2 fun j1 j2 i1 i2 => grows i1 i2 j1 j2) (3 * 2) S') ∧
    ((growing 2 3 grows).getCorrespondence byDegree 3 {} >>= fun x => .ok x.2) =
      .ok (.ret ([0, 1], [0, 1])) ∧
    ((growing 3 2 fun j1 j2 i1 i2 => grows i1 i2 j1 j2).getCorrespondence byDegree 2 {} >>=
      fun x => .ok x.2) = .ok (.ret ([0, 1], [0, 1])) := by
  obtain ⟨S, h⟩ := growing_usable (M := 2) (N := 3) (c := grows) (by decide) (by decide +kernel)
    (by decide +kernel) (by decide) (by decide) (by decide)
  obtain ⟨S', h'⟩ := growing_usable (M := 3) (N := 2) (c := fun j1 j2 i1 i2 => grows i1 i2 j1 j2)
    (by decide) (by decide +kernel) (by decide +kernel) (by decide) (by decide) (by decide)
  exact ⟨⟨S, S', h, h'⟩, by decide +kernel, by decide +kernel⟩

end CM
