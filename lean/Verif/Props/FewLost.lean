import Verif.Lemmas.Lost

/-!
# C119: leaving elements out loses no more matches than elements

`Keeps K K' φ` (in `Props/Subset.lean`): `φ` lists, in order, the `K'` elements that are left of `K`.
-/

namespace CM

open Spec Graph Sample

variable {M M' N N' : Nat} {S S' : SimpleGraph Nat} {pg pg' : PyGraph}

theorem part_ge {φ ψ : Nat → Nat} (hφ : Keeps M M' φ) (hψ : Keeps N N' ψ) (hA : Apart M N S)
    (hA' : Apart M' N' S') (h : Usable pg (M * N) S) (h' : Usable pg' (M' * N') S')
    (hu : M ≤ 65535 ∨ N ≤ 65535) (hu' : M' ≤ 65535 ∨ N' ≤ 65535)
    (hm : ∀ i1 i2 j1 j2, i1 < M' → i2 < M' → j1 < N' → j2 < N' →
      S.Adj (pairId N (φ i1) (ψ j1)) (pairId N (φ i2) (ψ j2)) →
      S'.Adj (pairId N' i1 j1) (pairId N' i2 j2))
    {srt srt' : List VData → List VData} (hsrt : ∀ l, (srt l).Perm l)
    (hsrt' : ∀ l, (srt' l).Perm l) :
    ∃ q q' f s f' s', pg.getCorrespondence srt N {} = .ok (q, .ret (f, s)) ∧
      pg'.getCorrespondence srt' N' {} = .ok (q', .ret (f', s')) ∧
      f.length ≤ f'.length + (M - M') + (N - N') := by
  obtain ⟨q, f, s, h1, h2, h3, ⟨l, h4, h5⟩, _⟩ := largest_of (R := fun _ _ _ _ => False) hA h hu
    (fun _ _ _ _ _ _ _ _ _ _ h => h.elim) hsrt
  obtain ⟨q', f', s', g1, _, _, _, g6⟩ := largest_of (R := fun i1 i2 j1 j2 =>
    S'.Adj (pairId N' i1 j1) (pairId N' i2 j2)) hA' h' hu'
    (fun _ _ _ _ _ _ _ _ _ _ h => h) hsrt'
  refine ⟨q, q', f, s, f', s', h1, g1, ?_⟩
  obtain ⟨ps, k1, k2, k3⟩ := IsMatching.part hφ hψ h3
  have := g6 ps k1 (by
    intro p hp q hq hne
    have hpr := k1.range p hp
    have hqr := k1.range q hq
    refine hm _ _ _ _ hpr.1 hqr.1 hpr.2 hqr.2 ?_
    have mp : pairId N (φ p.1) (ψ p.2) ∈ l := by
      rw [← h5]; exact List.mem_map.2 ⟨_, k2 p hp, rfl⟩
    have mq : pairId N (φ q.1) (ψ q.2) ∈ l := by
      rw [← h5]; exact List.mem_map.2 ⟨_, k2 q hq, rfl⟩
    refine h4.clique mp mq ?_
    intro he
    obtain ⟨a, b⟩ := pairId_inj (hψ.range _ hpr.2) (hψ.range _ hqr.2) he
    exact hne (by rw [Prod.ext (hφ.inj hpr.1 hqr.1 a) (hψ.inj hpr.2 hqr.2 b)]))
  rw [List.length_zip, ← h2, Nat.min_self] at k3
  omega

/-- **C119** for `build_edges_with_condition` and elements of the first set left out (partial: not of
the second, see `C119_refuted`): `get_correspondence()` loses no more matches than there are elements
left out. -/
theorem C119_first_partial {D : Type} [LinearOrder D] [Inhabited D] {argLR argLR' : Bool}
    {cap cap' : Nat} {srt1 srt1' srt2 : List (PairDist D) → List (PairDist D)} {w : Window D}
    {c : Nat → Nat → Nat → Nat → Bool} {d1 d2 : Nat → Nat → D} {sym1 sym2 : Bool} {φ : Nat → Nat}
    (hφ : Keeps M M' φ) (hb : M * N < 2 ^ 27) (hb' : M' * N < 2 ^ 27) (hs1 : Sorts srt1)
    (hs1' : Sorts srt1') (hs2 : Sorts srt2) (hm : Monotone w.lo)
    (he : buildBoth argLR cap PyGraph.new srt1 srt2 M N w c d1 sym1 d2 sym2 = .ok pg)
    (he' : buildBoth argLR' cap' PyGraph.new srt1' srt2 M' N w
      (fun i1 i2 j1 j2 => c (φ i1) (φ i2) j1 j2) (fun i j => d1 (φ i) (φ j)) sym1 d2 sym2 = .ok pg')
    (h : Usable pg (M * N) S) (h' : Usable pg' (M' * N) S') (hu : M ≤ 65535 ∨ N ≤ 65535)
    (hu' : M' ≤ 65535 ∨ N ≤ 65535)
    {srt srt' : List VData → List VData} (hsrt : ∀ l, (srt l).Perm l)
    (hsrt' : ∀ l, (srt' l).Perm l) :
    ∃ q q' f s f' s', pg.getCorrespondence srt N {} = .ok (q, .ret (f, s)) ∧
      pg'.getCorrespondence srt' N {} = .ok (q', .ret (f', s')) ∧
      f.length ≤ f'.length + (M - M') := by
  obtain ⟨⟨k1, k2, k3⟩, T, t1, t2⟩ := buildBoth_ok hb hs1 hs2 hm he
  obtain ⟨⟨k1', _, k3'⟩, T', t1', t2'⟩ := buildBoth_ok hb' hs1' hs2 hm he'
  obtain ⟨_, rfl⟩ := h.loaded.unique t1
  obtain ⟨_, rfl⟩ := h'.loaded.unique t1'
  obtain ⟨_, _, U, U', a1, b1, a2, b2, hU⟩ := buildBoth_rest (argLR := argLR) (argLR' := argLR')
    (cap := cap) (cap' := cap') (c := c) (d1 := d1) (d2 := d2) (sym1 := sym1) (sym2 := sym2) k1 k1' k2
    k3 k3' hb hb' hs1 hs1' hs2 hm hφ
  rw [he] at a1
  cases a1
  rw [he'] at b1
  cases b1
  obtain ⟨_, rfl⟩ := t1.unique a2
  obtain ⟨_, rfl⟩ := t1'.unique b2
  have := part_ge hφ (Keeps.refl N) (fun u v ha => ?_) (fun u v ha => ?_) h h' hu hu' hU hsrt hsrt'
  · rw [Nat.sub_self] at this
    exact this
  · obtain ⟨i1, i2, j1, j2, a, b, c, d, e, f, g, h, _⟩ := t2.apart u v ha
    exact ⟨i1, i2, j1, j2, a, b, c, d, e, f, g, h⟩
  · obtain ⟨i1, i2, j1, j2, a, b, c, d, e, f, g, h, _⟩ := t2'.apart u v ha
    exact ⟨i1, i2, j1, j2, a, b, c, d, e, f, g, h⟩

/-- **C119** for `build_edges_condition_only`, elements of both sets left out. -/
theorem C119_condition {argLR argLR' : Bool} {cap cap' : Nat} {c : Nat → Nat → Nat → Nat → Bool}
    {φ ψ : Nat → Nat} (hφ : Keeps M M' φ) (hψ : Keeps N N' ψ) (hb : M * N < 2 ^ 27)
    (hb' : M' * N' < 2 ^ 27)
    (he : buildCondition argLR cap PyGraph.new M N c = .ok pg)
    (he' : buildCondition argLR' cap' PyGraph.new M' N'
      (fun i1 i2 j1 j2 => c (φ i1) (φ i2) (ψ j1) (ψ j2)) = .ok pg')
    (h : Usable pg (M * N) S) (h' : Usable pg' (M' * N') S') (hu : M ≤ 65535 ∨ N ≤ 65535)
    (hu' : M' ≤ 65535 ∨ N' ≤ 65535)
    {srt srt' : List VData → List VData} (hsrt : ∀ l, (srt l).Perm l)
    (hsrt' : ∀ l, (srt' l).Perm l) :
    ∃ q q' f s f' s', pg.getCorrespondence srt N {} = .ok (q, .ret (f, s)) ∧
      pg'.getCorrespondence srt' N' {} = .ok (q', .ret (f', s')) ∧
      f.length ≤ f'.length + (M - M') + (N - N') := by
  obtain ⟨_, e1, e2⟩ := buildCondition_spec hb c argLR cap
  rw [he] at e1
  cases e1
  obtain ⟨_, e1', e2'⟩ := buildCondition_spec hb' (fun i1 i2 j1 j2 => c (φ i1) (φ i2) (ψ j1) (ψ j2))
    argLR' cap'
  rw [he'] at e1'
  cases e1'
  obtain ⟨_, rfl⟩ := h.loaded.unique e2
  obtain ⟨_, rfl⟩ := h'.loaded.unique e2'
  have hmin : ∀ {K K' : Nat} {θ : Nat → Nat}, Keeps K K' θ → ∀ i j, i < K' → j < K' →
      θ (min i j) = min (θ i) (θ j) ∧ θ (max i j) = max (θ i) (θ j) := by
    intro K K' θ hk i j hi hj
    rcases Nat.lt_trichotomy i j with h1 | rfl | h1
    · have := hk.order _ _ h1 hj
      rw [Nat.min_eq_left h1.le, Nat.max_eq_right h1.le, Nat.min_eq_left this.le,
        Nat.max_eq_right this.le]
      exact ⟨rfl, rfl⟩
    · simp
    · have := hk.order _ _ h1 hi
      rw [Nat.min_eq_right h1.le, Nat.max_eq_left h1.le, Nat.min_eq_right this.le,
        Nat.max_eq_left this.le]
      exact ⟨rfl, rfl⟩
  refine part_ge hφ hψ corrGraph_apart corrGraph_apart h h' hu hu'
    (fun i1 i2 j1 j2 h1 h2 h3 h4 ha => ?_) hsrt hsrt'
  rw [corrGraph_adj h1 h2 h3 h4]
  rw [corrGraph_adj (hφ.range _ h1) (hφ.range _ h2) (hψ.range _ h3) (hψ.range _ h4)] at ha
  obtain ⟨a1, a2, a3⟩ := ha
  refine ⟨fun e => a1 (by rw [e]), fun e => a2 (by rw [e]), ?_⟩
  simp only [(hmin hφ _ _ h1 h2).1, (hmin hφ _ _ h1 h2).2, (hmin hφ _ _ h2 h1).1,
    (hmin hφ _ _ h2 h1).2, (hmin hψ _ _ h3 h4).1, (hmin hψ _ _ h3 h4).2, (hmin hψ _ _ h4 h3).1,
    (hmin hψ _ _ h4 h3).2]
  exact a3

/-- **C119** is false of elements of the second set left out, with distances: of the points 6, 4, 5, 3
and 8, 3, 0, 8, 5 of a line four are matched with tolerance 2, and two if the last is left out. -/
theorem C119_refuted :
    (buildMetric true 4000 PyGraph.new byDist byDist 4 5 (intWindow 2) (onLine [6, 4, 5, 3]) true
        (onLine [8, 3, 0, 8, 5]) true >>= fun pg =>
      pg.getCorrespondence byDegree 5 {} >>= fun x => .ok x.2) =
        .ok (.ret ([0, 1, 2, 3], [3, 4, 0, 1])) ∧
    (buildMetric true 4000 PyGraph.new byDist byDist 4 4 (intWindow 2) (onLine [6, 4, 5, 3]) true
        (onLine [8, 3, 0, 8]) true >>= fun pg =>
      pg.getCorrespondence byDegree 4 {} >>= fun x => .ok x.2) =
        .ok (.ret ([0, 3], [0, 1])) := by
  decide +kernel

/-! ## Examples -/

/-- The hypotheses of `C119_first_partial` are met by the points of `tol 1` and all but the second of
them: one match is lost. -/
example : ∃ q q' f s f' s', (tol 1).getCorrespondence byDegree 4 {} = .ok (q, .ret (f, s)) ∧
    tolPart.getCorrespondence byDegree 4 {} = .ok (q', .ret (f', s')) ∧
    f.length ≤ f'.length + (4 - 3) := by
  obtain ⟨S, h⟩ := tol_usable (ε := 1) (by decide) (by decide +kernel) (by decide +kernel)
  obtain ⟨S', h'⟩ := tolPart_usable
  exact C119_first_partial (argLR := true) (argLR' := true) (cap := 400) (cap' := 400)
    (c := fun _ _ _ _ => true) (w := intWindow 1) (d1 := onLine [0, 2, 5, 9])
    (d2 := onLine [0, 2, 6, 20]) (sym1 := true) (sym2 := true) allBut_keeps (by decide) (by decide)
    byDist_sorts byDist_sorts byDist_sorts (by intro a b h; simp only [intWindow]; omega)
    (by decide +kernel) (by decide +kernel) h h' (by decide) (by decide) byDegree_perm byDegree_perm

/-- The hypotheses of `C119_condition` are met. -/
example : ∃ q q' f s f' s', (growing 3 3 grows).getCorrespondence byDegree 3 {} = .ok (q, .ret (f, s)) ∧
    (growing 2 2 fun i1 i2 j1 j2 => grows (i1 + 1) (i2 + 1) (j1 + 1) (j2 + 1)).getCorrespondence
      byDegree 2 {} = .ok (q', .ret (f', s')) ∧ f.length ≤ f'.length + (3 - 2) + (3 - 2) := by
  have h := growing_usable (M := 3) (N := 3) (c := grows) (by decide) (by decide +kernel)
    (by decide +kernel) (by decide) (by decide) (by decide)
  have h' := growing_usable (M := 2) (N := 2)
    (c := fun i1 i2 j1 j2 => grows (i1 + 1) (i2 + 1) (j1 + 1) (j2 + 1)) (by decide)
    (by decide +kernel) (by decide +kernel) (by decide) (by decide) (by decide)
  obtain ⟨S, h⟩ := h
  obtain ⟨S', h'⟩ := h'
  have hk : Keeps 3 2 (fun i => i + 1) := ⟨fun i h => by omega, fun i j _ _ => by omega⟩
  exact C119_condition (argLR := true) (argLR' := true) (cap := 400) (cap' := 400) (c := grows) hk hk
    (by decide)
    (by decide) (by decide +kernel) (by decide +kernel) h h' (by decide) (by decide) byDegree_perm
    byDegree_perm

end CM
