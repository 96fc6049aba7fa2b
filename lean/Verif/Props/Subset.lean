import Verif.Lemmas.Subset
import Verif.Props.Tolerance

/-!
# Properties: elements left out

To leave out elements of one of the sets never gives more matches.
-/

namespace CM

open Spec Graph Sample

variable {M M' N N' : Nat} {S S' : SimpleGraph Nat} {pg pg' : PyGraph}

/-- `φ` lists, in order, the `K'` elements that are left of `K`. -/
structure Keeps (K K' : Nat) (φ : Nat → Nat) : Prop where
  range : ∀ i, i < K' → φ i < K
  order : ∀ i j, i < j → j < K' → φ i < φ j

theorem Keeps.inj {K K' : Nat} {φ : Nat → Nat} (h : Keeps K K' φ) {i j : Nat} (hi : i < K')
    (hj : j < K') (he : φ i = φ j) : i = j := by
  rcases Nat.lt_trichotomy i j with h1 | h1 | h1
  · have := h.order _ _ h1 hj; omega
  · exact h1
  · have := h.order _ _ h1 hi; omega

theorem Keeps.refl (K : Nat) : Keeps K K (fun i => i) := ⟨fun _ h => h, fun _ _ h _ => h⟩

/-- A matching of what is left is one of the whole sets. -/
theorem IsMatching.whole {φ ψ : Nat → Nat} (hφ : Keeps M M' φ) (hψ : Keeps N N' ψ)
    {ps : List (Nat × Nat)} (h : IsMatching M' N' ps) :
    IsMatching M N (ps.map fun p => (φ p.1, ψ p.2)) where
  range p hp := by
    obtain ⟨q, hq, rfl⟩ := List.mem_map.1 hp
    exact ⟨hφ.range _ (h.range q hq).1, hψ.range _ (h.range q hq).2⟩
  first := by
    have := h.first
    rw [List.map_map]
    show (ps.map fun p => φ p.1).Nodup
    rw [List.Nodup, List.pairwise_map] at this ⊢
    refine List.Pairwise.imp_of_mem ?_ this
    intro a b ha hb hne he
    exact hne (hφ.inj (h.range a ha).1 (h.range b hb).1 he)
  second := by
    have := h.second
    rw [List.map_map]
    show (ps.map fun p => ψ p.2).Nodup
    rw [List.Nodup, List.pairwise_map] at this ⊢
    refine List.Pairwise.imp_of_mem ?_ this
    intro a b ha hb hne he
    exact hne (hψ.inj (h.range a ha).2 (h.range b hb).2 he)

theorem part_le {φ ψ : Nat → Nat} (hφ : Keeps M M' φ) (hψ : Keeps N N' ψ) (hA : Apart M N S)
    (hA' : Apart M' N' S') (h : Usable pg (M * N) S) (h' : Usable pg' (M' * N') S')
    (hu : M ≤ 65535 ∨ N ≤ 65535) (hu' : M' ≤ 65535 ∨ N' ≤ 65535)
    (hm : ∀ i1 i2 j1 j2, i1 < M' → i2 < M' → j1 < N' → j2 < N' →
      S'.Adj (pairId N' i1 j1) (pairId N' i2 j2) →
      S.Adj (pairId N (φ i1) (ψ j1)) (pairId N (φ i2) (ψ j2)))
    {srt srt' : List VData → List VData} (hsrt : ∀ l, (srt l).Perm l)
    (hsrt' : ∀ l, (srt' l).Perm l) :
    ∃ q q' f s f' s', pg.getCorrespondence srt N {} = .ok (q, .ret (f, s)) ∧
      pg'.getCorrespondence srt' N' {} = .ok (q', .ret (f', s')) ∧ f'.length ≤ f.length := by
  obtain ⟨q', f', s', h1, h2, h3, ⟨l, h4, h5⟩, _⟩ := largest_of (R := fun _ _ _ _ => False) hA' h' hu'
    (fun _ _ _ _ _ _ _ _ _ _ h => h.elim) hsrt'
  obtain ⟨q, f, s, g1, _, _, _, g6⟩ := largest_of (R := fun i1 i2 j1 j2 =>
    S.Adj (pairId N i1 j1) (pairId N i2 j2)) hA h hu
    (fun _ _ _ _ _ _ _ _ _ _ h => h) hsrt
  refine ⟨q, q', f, s, f', s', g1, h1, ?_⟩
  have := g6 _ (IsMatching.whole hφ hψ h3) (by
    intro p hp q hq hne
    obtain ⟨p, kp, rfl⟩ := List.mem_map.1 hp
    obtain ⟨q, kq, rfl⟩ := List.mem_map.1 hq
    have hpr := h3.range p kp
    have hqr := h3.range q kq
    refine hm _ _ _ _ hpr.1 hqr.1 hpr.2 hqr.2 ?_
    have mp : pairId N' p.1 p.2 ∈ l := by rw [← h5]; exact List.mem_map.2 ⟨p, kp, rfl⟩
    have mq : pairId N' q.1 q.2 ∈ l := by rw [← h5]; exact List.mem_map.2 ⟨q, kq, rfl⟩
    refine h4.clique mp mq ?_
    intro he
    obtain ⟨a, b⟩ := pairId_inj hpr.2 hqr.2 he
    exact hne (by rw [Prod.ext a b]))
  rw [List.length_map, List.length_zip, ← h2, Nat.min_self] at this
  exact this

/-! ## Distances -/

/-- **C116** for `build_edges_with_condition` and elements of the first set left out (partial: not of
the second, see `C116_refuted`): `get_correspondence()` does not match more elements. -/
theorem C116_first_partial {D : Type} [LinearOrder D] [Inhabited D] {argLR argLR' : Bool}
    {cap cap' : Nat} {srt1 srt1' srt2 : List (PairDist D) → List (PairDist D)} {w : Window D}
    {c : Nat → Nat → Nat → Nat → Bool} {d1 d2 : Nat → Nat → D} {sym1 sym2 : Bool} {φ : Nat → Nat}
    (hφ : Keeps M M' φ) (hb : M * N < 2 ^ 27) (hb' : M' * N < 2 ^ 27) (hs1 : Sorts srt1)
    (hs1' : Sorts srt1') (hs2 : Sorts srt2) (hm : Monotone w.lo)
    (he : buildBoth argLR cap PyGraph.new srt1 srt2 M N w c d1 sym1 d2 sym2 = .ok pg)
    (he' : buildBoth argLR' cap' PyGraph.new srt1' srt2 M' N w
      (fun i1 i2 j1 j2 => c (φ i1) (φ i2) j1 j2) (fun i j => d1 (φ i) (φ j)) sym1 d2 sym2 = .ok pg')
    (h : Usable pg (M * N) S) (h' : Usable pg' (M' * N) S') (hu : M ≤ 65535 ∨ N ≤ 65535)
    (hu' : M' ≤ 65535 ∨ N ≤ 65535)
    {srt srt' : List VData → List VData} (hsrt : ∀ l, (srt l).Perm l)
    (hsrt' : ∀ l, (srt' l).Perm l) :
    ∃ q q' f s f' s', pg.getCorrespondence srt N {} = .ok (q, .ret (f, s)) ∧
      pg'.getCorrespondence srt' N {} = .ok (q', .ret (f', s')) ∧ f'.length ≤ f.length := by
  obtain ⟨⟨k1, k2, k3⟩, T, t1, t2⟩ := buildBoth_ok hb hs1 hs2 hm he
  obtain ⟨⟨k1', _, k3'⟩, T', t1', t2'⟩ := buildBoth_ok hb' hs1' hs2 hm he'
  obtain ⟨_, rfl⟩ := h.loaded.unique t1
  obtain ⟨_, rfl⟩ := h'.loaded.unique t1'
  obtain ⟨_, _, U, U', a1, b1, a2, b2, hU⟩ := buildBoth_subset (argLR := argLR) (argLR' := argLR')
    (cap := cap) (cap' := cap') (c := c) (d1 := d1) (d2 := d2) (sym1 := sym1) (sym2 := sym2) k1 k1' k2
    k3 k3' hb hb' hs1 hs1' hs2 hm hφ.range hφ.order
  rw [he] at a1
  cases a1
  rw [he'] at b1
  cases b1
  obtain ⟨_, rfl⟩ := t1.unique a2
  obtain ⟨_, rfl⟩ := t1'.unique b2
  refine part_le hφ (Keeps.refl N) (fun u v ha => ?_) (fun u v ha => ?_) h h' hu hu' hU hsrt hsrt'
  · obtain ⟨i1, i2, j1, j2, a, b, c, d, e, f, g, h, _⟩ := t2.apart u v ha
    exact ⟨i1, i2, j1, j2, a, b, c, d, e, f, g, h⟩
  · obtain ⟨i1, i2, j1, j2, a, b, c, d, e, f, g, h, _⟩ := t2'.apart u v ha
    exact ⟨i1, i2, j1, j2, a, b, c, d, e, f, g, h⟩

/-- **C116** for `build_edges` and elements of both sets left out (partial: only if the shorter answer
is right; see `C116_refuted`). -/
theorem C116_right_partial {argLR argLR' : Bool} {cap cap' : Nat}
    {srt1 srt2 srt3 srt4 : List (PairDist Int) → List (PairDist Int)} {ε : Int}
    {d1 d2 : Nat → Nat → Int} {sym1 sym2 : Bool} {φ ψ : Nat → Nat} (hφ : Keeps M M' φ)
    (hψ : Keeps N N' ψ) (hb : M * N < 2 ^ 27) (hb' : M' * N' < 2 ^ 27) (hs1 : Sorts srt1)
    (hs2 : Sorts srt2) (hs3 : Sorts srt3) (hs4 : Sorts srt4)
    (hsym1 : sym1 = true → ∀ i j, d1 i j = d1 j i) (hsym2 : sym2 = true → ∀ i j, d2 i j = d2 j i)
    (he : buildMetric argLR cap PyGraph.new srt1 srt2 M N (intWindow ε) d1 sym1 d2 sym2 = .ok pg)
    (he' : buildMetric argLR' cap' PyGraph.new srt3 srt4 M' N' (intWindow ε)
      (fun i j => d1 (φ i) (φ j)) sym1 (fun i j => d2 (ψ i) (ψ j)) sym2 = .ok pg')
    (h : Usable pg (M * N) S) (h' : Usable pg' (M' * N') S') (hu : M ≤ 65535 ∨ N ≤ 65535)
    (hu' : M' ≤ 65535 ∨ N' ≤ 65535)
    {srt srt' : List VData → List VData} (hsrt : ∀ l, (srt l).Perm l)
    (hsrt' : ∀ l, (srt' l).Perm l) :
    ∃ q q' f s f' s', pg.getCorrespondence srt N {} = .ok (q, .ret (f, s)) ∧
      pg'.getCorrespondence srt' N' {} = .ok (q', .ret (f', s')) ∧
      (Consistent (fun i1 i2 j1 j2 => |d1 (φ i1) (φ i2) - d2 (ψ j1) (ψ j2)| < ε) (f'.zip s') →
        f'.length ≤ f.length) := by
  obtain ⟨q, f, s, a1, _, _, a4⟩ := C52_largest_exact hb hs1 hs2 hsym1 hsym2 he h hu hsrt
  obtain ⟨q', f', s', b1, b2, b3, _⟩ := C52_largest_exact hb' hs3 hs4
    (fun hs i j => hsym1 hs _ _) (fun hs i j => hsym2 hs _ _) he' h' hu' hsrt'
  refine ⟨q, q', f, s, f', s', a1, b1, fun hc => ?_⟩
  have := a4 _ (IsMatching.whole hφ hψ b3) (by
    intro p hp q hq hne
    obtain ⟨p, kp, rfl⟩ := List.mem_map.1 hp
    obtain ⟨q, kq, rfl⟩ := List.mem_map.1 hq
    exact hc p kp q kq (fun e => hne (by rw [e])))
  rwa [List.length_map, List.length_zip, ← b2, Nat.min_self] at this

/-- **C116** is false of the second set: two of the points 0, 1, 2 of a line match points of 0, 2, 4, 8
with tolerance 1, and all three once the point 8 is left out (wrongly, see `C30_refuted`). -/
theorem C116_refuted :
    (buildMetric true 400 PyGraph.new byDist byDist 3 4 (intWindow 1) (onLine [0, 1, 2]) true
        (onLine [0, 2, 4, 8]) true >>= fun pg =>
      pg.getCorrespondence byDegree 4 {} >>= fun x => .ok x.2) = .ok (.ret ([0, 2], [0, 1])) ∧
    (buildMetric true 400 PyGraph.new byDist byDist 3 3 (intWindow 1) (onLine [0, 1, 2]) true
        (onLine [0, 2, 4]) true >>= fun pg =>
      pg.getCorrespondence byDegree 3 {} >>= fun x => .ok x.2) =
        .ok (.ret ([0, 1, 2], [0, 1, 2])) := by
  decide +kernel

/-! ## Condition functions alone -/

/-- **C116** for `build_edges_condition_only`, elements of both sets left out. -/
theorem C116_condition {argLR argLR' : Bool} {cap cap' : Nat} {c : Nat → Nat → Nat → Nat → Bool}
    {φ ψ : Nat → Nat} (hφ : Keeps M M' φ) (hψ : Keeps N N' ψ) (hb : M * N < 2 ^ 27)
    (hb' : M' * N' < 2 ^ 27)
    (he : buildCondition argLR cap PyGraph.new M N c = .ok pg)
    (he' : buildCondition argLR' cap' PyGraph.new M' N'
      (fun i1 i2 j1 j2 => c (φ i1) (φ i2) (ψ j1) (ψ j2)) = .ok pg')
    (h : Usable pg (M * N) S) (h' : Usable pg' (M' * N') S') (hu : M ≤ 65535 ∨ N ≤ 65535)
    (hu' : M' ≤ 65535 ∨ N' ≤ 65535)
    {srt srt' : List VData → List VData} (hsrt : ∀ l, (srt l).Perm l)
    (hsrt' : ∀ l, (srt' l).Perm l) :
    ∃ q q' f s f' s', pg.getCorrespondence srt N {} = .ok (q, .ret (f, s)) ∧
      pg'.getCorrespondence srt' N' {} = .ok (q', .ret (f', s')) ∧ f'.length ≤ f.length := by
  obtain ⟨_, e1, e2⟩ := buildCondition_spec hb c argLR cap
  rw [he] at e1
  cases e1
  obtain ⟨_, e1', e2'⟩ := buildCondition_spec hb' (fun i1 i2 j1 j2 => c (φ i1) (φ i2) (ψ j1) (ψ j2))
    argLR' cap'
  rw [he'] at e1'
  cases e1'
  obtain ⟨_, rfl⟩ := h.loaded.unique e2
  obtain ⟨_, rfl⟩ := h'.loaded.unique e2'
  have hmin : ∀ {K K' : Nat} {θ : Nat → Nat}, Keeps K K' θ → ∀ i j, i < K' → j < K' →
      θ (min i j) = min (θ i) (θ j) ∧ θ (max i j) = max (θ i) (θ j) := by
    intro K K' θ hk i j hi hj
    rcases Nat.lt_trichotomy i j with h1 | rfl | h1
    · have := hk.order _ _ h1 hj
      rw [Nat.min_eq_left h1.le, Nat.max_eq_right h1.le, Nat.min_eq_left this.le,
        Nat.max_eq_right this.le]
      exact ⟨rfl, rfl⟩
    · simp
    · have := hk.order _ _ h1 hi
      rw [Nat.min_eq_right h1.le, Nat.max_eq_left h1.le, Nat.min_eq_right this.le,
        Nat.max_eq_left this.le]
      exact ⟨rfl, rfl⟩
  refine part_le hφ hψ corrGraph_apart corrGraph_apart h h' hu hu'
    (fun i1 i2 j1 j2 h1 h2 h3 h4 ha => ?_) hsrt hsrt'
  rw [corrGraph_adj h1 h2 h3 h4] at ha
  rw [corrGraph_adj (hφ.range _ h1) (hφ.range _ h2) (hψ.range _ h3) (hψ.range _ h4)]
  obtain ⟨a1, a2, a3⟩ := ha
  refine ⟨fun e => a1 (hφ.inj h1 h2 e), fun e => a2 (hψ.inj h3 h4 e), ?_⟩
  simp only [(hmin hφ _ _ h1 h2).1, (hmin hφ _ _ h1 h2).2, (hmin hφ _ _ h2 h1).1,
    (hmin hφ _ _ h2 h1).2, (hmin hψ _ _ h3 h4).1, (hmin hψ _ _ h3 h4).2, (hmin hψ _ _ h4 h3).1,
    (hmin hψ _ _ h4 h3).2] at a3
  exact a3

/-! ## Examples -/

namespace Sample

/-- All but the second element of four. -/
def allBut (i : Nat) : Nat := if i = 0 then 0 else i + 1

theorem allBut_keeps : Keeps 4 3 allBut :=
  ⟨fun i h => by unfold allBut; split <;> omega, fun i j h1 h2 => by
    unfold allBut; split <;> split <;> omega⟩

/-- The points of `tol 1` without the second. -/
def tolPart : PyGraph :=
  get PyGraph.new (buildMetric true 400 PyGraph.new byDist byDist 3 4 (intWindow 1)
    (fun i j => onLine [0, 2, 5, 9] (allBut i) (allBut j)) true (onLine [0, 2, 6, 20]) true)

theorem tolPart_eq : buildMetric true 400 PyGraph.new byDist byDist 3 4 (intWindow 1)
    (fun i j => onLine [0, 2, 5, 9] (allBut i) (allBut j)) true (onLine [0, 2, 6, 20]) true =
      .ok tolPart := by decide +kernel

theorem tolPart_usable : ∃ S, Usable tolPart (3 * 4) S := by
  obtain ⟨pg, S, e1, e2, e3⟩ := C29_exact (argLR := true) (cap := 400) (ε := 1) (M := 3) (N := 4)
    (d1 := fun i j => onLine [0, 2, 5, 9] (allBut i) (allBut j))
    (by decide) (by decide) (by decide) (by decide) byDist_sorts byDist_sorts
    (sym1 := true) (sym2 := true)
    (fun _ _ _ => onLine_symm [0, 2, 5, 9] _ _) (fun _ => onLine_symm [0, 2, 6, 20])
  rw [tolPart_eq] at e1
  cases e1
  refine ⟨S, e2, ?_, _, _, e3 1 2 1 2 (by decide) (by decide) (by decide) (by decide) (by decide)
    (by decide) (by decide)⟩
  intro G hG
  have : (tolPart.G.map fun G => G.dangling) = some false := by decide +kernel
  rw [hG] at this
  simpa using this

end Sample

/-- The hypotheses of `C116_first_partial` and `C116_right_partial` are met: without its second point,
two of the points of `tol 1` are matched instead of three. -/
example : Keeps 4 3 allBut ∧
    (∃ S S', Usable (tol 1) (4 * 4) S ∧ Usable tolPart (3 * 4) S') ∧
    ((tol 1).getCorrespondence byDegree 4 {} >>= fun x => .ok x.2) =
      .ok (.ret ([0, 1, 2], [0, 1, 2])) ∧
    (tolPart.getCorrespondence byDegree 4 {} >>= fun x => .ok x.2) =
      .ok (.ret ([0, 1], [2, 1])) := by
  obtain ⟨S, h⟩ := tol_usable (ε := 1) (by decide) (by decide +kernel) (by decide +kernel)
  obtain ⟨S', h'⟩ := tolPart_usable
  refine ⟨allBut_keeps, ⟨S, S', h, h'⟩, ?_, ?_⟩
  · decide +kernel
  · decide +kernel

/-- The hypotheses of `C116_condition` are met. -/
example : Keeps 3 2 (fun i => i + 1) ∧
    ∃ S S', Usable (growing 3 3 grows) (3 * 3) S ∧ Usable (growing 2 2 fun i1 i2 j1 j2 =>
      grows (i1 + 1) (i2 + 1) (j1 + 1) (j2 + 1)) (2 * 2) S' := by
  have h := growing_usable (M := 3) (N := 3) (c := grows) (by decide) (by decide +kernel)
    (by decide +kernel) (by decide) (by decide) (by decide)
  have h' := growing_usable (M := 2) (N := 2)
    (c := fun i1 i2 j1 j2 => grows (i1 + 1) (i2 + 1) (j1 + 1) (j2 + 1)) (by decide)
    (by decide +kernel) (by decide +kernel) (by decide) (by decide) (by decide)
  refine ⟨⟨fun i h => by omega, fun i j _ _ => by omega⟩, ?_⟩
  exact h.elim fun S h => h'.elim fun S' h' => ⟨S, S', h, h'⟩

end CM
