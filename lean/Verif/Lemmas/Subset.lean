import Verif.Lemmas.Tolerance

/-! # The edges that `build_edges` makes, without the order of the first list -/

namespace CM

open Spec

section
variable {D : Type} [LinearOrder D] [Inhabited D]

/-- `F` tells where `binary_find2` stops in the list. -/
structure Finds (N : Nat) (a : List (PairDist D)) (F : D → Int × Nat) : Prop where
  total : 2 ≤ N → (∀ v, binaryFind2 a a.length v = .ok (F v)) ∧ ∀ v, upper F a.length v < a.length
  found : ∀ v v', v ≤ v' → (F v).1 = -1 → (F v').1 = -1
  place : ∀ v v', v ≤ v' → (F v).2 ≤ (F v').2
  upper : ∀ v, upper F a.length v = (F v).2

theorem exists_finds {srt2 : List (PairDist D) → List (PairDist D)} {N : Nat} (hN : N < 2 ^ 27)
    (hs2 : Sorts srt2) (sym2 : Bool) (d2 : Nat → Nat → D) :
    ∃ F, Finds N (srt2 (pairList N sym2 d2)) F := by
  have hl2 := sorted_length hs2 N sym2 d2
  by_cases h2 : 2 ≤ N
  · have hpos : 0 < (srt2 (pairList N sym2 d2)).length := by
      rw [hl2]
      have : 2 * 1 ≤ N * (N - 1) := Nat.mul_le_mul h2 (by omega)
      unfold relLen; split <;> omega
    have hlt : (srt2 (pairList N sym2 d2)).length < 2 ^ 63 := by
      rw [hl2]
      have : N * (N - 1) ≤ 2 ^ 27 * 2 ^ 27 := Nat.mul_le_mul (by omega) (by omega)
      unfold relLen; split <;> omega
    obtain ⟨F, a1, a2, a3, a4, a5⟩ := binaryFind2_total (hs2 (pairList N sym2 d2)).2 hpos hlt
    have hup : ∀ v, CM.upper F (srt2 (pairList N sym2 d2)).length v = (F v).2 := by
      intro v
      unfold CM.upper
      split
      · rename_i h
        rw [usub_eq (by omega) (by omega), a3 v h]
      · rfl
    exact ⟨F, fun _ => ⟨a1, fun v => by rw [hup]; exact a2 v⟩, a4, a5, hup⟩
  · exact ⟨fun _ => (0, 0), fun h => absurd h h2, fun _ _ _ h => h, fun _ _ _ => le_refl _,
      fun v => by unfold CM.upper; rw [if_neg (by simp)]⟩

/-- The entry `x` of the first list is linked with the `j`th of the second. -/
def LinkedWith (w : Window D) (F : D → Int × Nat) (x : PairDist D) (j : Nat) : Prop :=
  (F (w.lo x.dist)).1 ≠ -1 ∧ (F (w.lo x.dist)).2 ≤ j ∧ j ≤ (F (w.hi x.dist)).2

/-- `build_edges`, exactly: which entries are linked does not depend on the others in the first
list. -/
theorem buildBoth_linked {argLR : Bool} {cap : Nat}
    {srt1 srt2 : List (PairDist D) → List (PairDist D)} {M N : Nat} {w : Window D}
    {c : Nat → Nat → Nat → Nat → Bool} {d1 d2 : Nat → Nat → D} {sym1 sym2 : Bool}
    {F : D → Int × Nat} (hM : 1 ≤ M) (hN : 1 ≤ N) (hne : M = 1 ∨ 2 ≤ N) (hb : M * N < 2 ^ 27)
    (hs1 : Sorts srt1) (hs2 : Sorts srt2) (hm : Monotone w.lo)
    (hF : Finds N (srt2 (pairList N sym2 d2)) F) :
    ∃ pg S, buildBoth argLR cap PyGraph.new srt1 srt2 M N w c d1 sym1 d2 sym2 = .ok pg ∧
      Loaded pg (M * N) S ∧ ∀ u v, S.Adj u v ↔ ∃ x ∈ pairList M sym1 d1, ∃ j, LinkedWith w F x j ∧
        (u, v) ∈ linksOf N sym1 sym2 c x ((srt2 (pairList N sym2 d2)).getD j default) := by
  have hMb : M ≤ M * N := Nat.le_mul_of_pos_right _ hN
  have hNb : N ≤ M * N := Nat.le_mul_of_pos_left _ hM
  have hp1 := sorted_pairs hs1 M sym1 d1
  have hp2 := sorted_pairs hs2 N sym2 d2
  have hl1 := sorted_length hs1 M sym1 d1
  have hl2 := sorted_length hs2 N sym2 d2
  have hrl : ∀ K sym, relLen K sym ≤ K * K := by
    intro K sym
    have : K * (K - 1) ≤ K * K := Nat.mul_le_mul_left _ (by omega)
    unfold relLen; split <;> omega
  have f1 : 0 < (srt1 (pairList M sym1 d1)).length →
      (∀ v, binaryFind2 (srt2 (pairList N sym2 d2)) (srt2 (pairList N sym2 d2)).length v =
        .ok (F v)) ∧
      ∀ v, upper F (srt2 (pairList N sym2 d2)).length v < (srt2 (pairList N sym2 d2)).length := by
    intro h
    refine hF.total ?_
    rcases hne with h1 | h1
    · rw [hl1, h1] at h
      unfold relLen at h
      split at h <;> omega
    · exact h1
  obtain ⟨m, E, h1, h2, h3⟩ := efrCondition_collect (c := c) (w := w) hM hN (by omega)
    hl1 hl2 hne (hs1 _).2 (hs2 _).2 hp1 hp2 hm
  have hE : ∀ e, e ∈ E ↔ Linked N sym1 sym2 c (srt1 (pairList M sym1 d1))
      (srt2 (pairList N sym2 d2)) w F (srt1 (pairList M sym1 d1)).length e := by
    obtain ⟨n, E2, g1, g2⟩ := efrCondition_exact (c := c) (w := w) hM hN (by omega) hl1 hl2 hp1 hp2
      f1
    rw [h1] at g1
    injection g1 with g1
    injection g1 with _ g1
    injection g1 with _ g1
    rw [List.append_cancel_left g1]
    exact g2
  obtain ⟨pg, e1, e2, _⟩ := load_built (h2.describes hp1 hp2) (by omega) (by
    rw [List.length_append, selfLoops_length]
    rw [hl1, hl2] at h3
    have h4 : 4 * relLen M sym1 * relLen N sym2 ≤ 4 * (M * M) * (N * N) :=
      Nat.mul_le_mul (Nat.mul_le_mul_left _ (hrl _ _)) (hrl _ _)
    have h5 : 4 * (M * M) * (N * N) = 4 * (M * N) * (M * N) := by
      simp only [Nat.mul_comm, Nat.mul_left_comm, Nat.mul_assoc]
    have := sq_bound hb
    omega) argLR cap m
  refine ⟨pg, _, ?_, e2, fun u v => ?_⟩
  · rw [buildBoth_eq (by omega) (by omega), h1, ok_bind]
    simp only
    rw [if_neg (selfLoops_ne _ _), e1]
  · rw [← h2.adj hp1 hp2, hE]
    constructor
    · rintro ⟨k, hk, g, j, a, b, he⟩
      rw [hF.upper] at b
      exact ⟨_, hs1.mem.1 (mem_iff_getD.2 ⟨k, hk, rfl⟩), j, ⟨g k (le_refl _), a, b⟩, he⟩
    · rintro ⟨x, hx, j, ⟨g, a, b⟩, he⟩
      obtain ⟨k, hk, rfl⟩ := mem_iff_getD.1 (hs1.mem.2 hx)
      refine ⟨k, hk, fun k' hk' hn => ?_, j, a, ?_, he⟩
      · exact g (hF.found _ _ (hm ((hs1 (pairList M sym1 d1)).2.le hk' hk)) hn)
      · rw [hF.upper]; exact b

/-- Fewer elements in the first set: the new graph is a part of the old one. -/
theorem buildBoth_subset {argLR argLR' : Bool} {cap cap' : Nat}
    {srt1 srt1' srt2 : List (PairDist D) → List (PairDist D)} {M M' N : Nat} {w : Window D}
    {c : Nat → Nat → Nat → Nat → Bool} {d1 d2 : Nat → Nat → D} {sym1 sym2 : Bool}
    (hM : 1 ≤ M) (hM' : 1 ≤ M') (hN : 1 ≤ N) (hne : M = 1 ∨ 2 ≤ N) (hne' : M' = 1 ∨ 2 ≤ N)
    (hb : M * N < 2 ^ 27) (hb' : M' * N < 2 ^ 27) (hs1 : Sorts srt1) (hs1' : Sorts srt1')
    (hs2 : Sorts srt2) (hm : Monotone w.lo) {φ : Nat → Nat} (hr : ∀ i, i < M' → φ i < M)
    (hφ : ∀ i j, i < j → j < M' → φ i < φ j) :
    ∃ pg pg' S S', buildBoth argLR cap PyGraph.new srt1 srt2 M N w c d1 sym1 d2 sym2 = .ok pg ∧
      buildBoth argLR' cap' PyGraph.new srt1' srt2 M' N w (fun i1 i2 j1 j2 => c (φ i1) (φ i2) j1 j2)
        (fun i j => d1 (φ i) (φ j)) sym1 d2 sym2 = .ok pg' ∧
      Loaded pg (M * N) S ∧ Loaded pg' (M' * N) S' ∧
      ∀ i1 i2 j1 j2, i1 < M' → i2 < M' → j1 < N → j2 < N →
        S'.Adj (pairId N i1 j1) (pairId N i2 j2) →
        S.Adj (pairId N (φ i1) j1) (pairId N (φ i2) j2) := by
  have hNb : N ≤ M * N := Nat.le_mul_of_pos_left _ hM
  have hp2 := sorted_pairs hs2 N sym2 d2
  obtain ⟨F, hF⟩ := exists_finds (N := N) (by omega) hs2 sym2 d2
  obtain ⟨pg, S, a1, a2, a3⟩ := buildBoth_linked (argLR := argLR) (cap := cap) (c := c) (d1 := d1)
    (sym1 := sym1) hM hN hne hb hs1 hs2 hm hF
  obtain ⟨pg', S', b1, b2, b3⟩ := buildBoth_linked (argLR := argLR') (cap := cap')
    (c := fun i1 i2 j1 j2 => c (φ i1) (φ i2) j1 j2) (d1 := fun i j => d1 (φ i) (φ j))
    (sym1 := sym1) hM' hN hne' hb' hs1' hs2 hm hF
  refine ⟨pg, pg', S, S', a1, b1, a2, b2, fun i1 i2 j1 j2 h1 h2 h3 h4 ha => ?_⟩
  obtain ⟨x, hx, j, hl, he⟩ := (b3 _ _).1 ha
  obtain ⟨x1, x2, x3, x4, x5⟩ := mem_pairList.1 hx
  have hyN : N < 2 ∨ ((srt2 (pairList N sym2 d2)).getD j default).first < N ∧
      ((srt2 (pairList N sym2 d2)).getD j default).second < N := by
    by_cases hN2 : N < 2
    · exact Or.inl hN2
    · right
      have hj : j < (srt2 (pairList N sym2 d2)).length := by
        have := (hF.total (by omega)).2 (w.hi x.dist)
        rw [hF.upper] at this
        exact lt_of_le_of_lt hl.2.2 this
      have := hp2 _ (mem_iff_getD.2 ⟨j, hj, rfl⟩)
      exact ⟨this.1, this.2.1⟩
  have hy : ((srt2 (pairList N sym2 d2)).getD j default).first < N ∧
      ((srt2 (pairList N sym2 d2)).getD j default).second < N := by
    rcases hyN with h | h
    · exfalso
      have : M' = 1 := by omega
      subst this
      omega
    · exact h
  refine (a3 _ _).2 ⟨⟨φ x.first, φ x.second, x.dist⟩, mem_pairList.2 ⟨hr _ x1, hr _ x2, ?_, ?_, ?_⟩,
    j, hl, ?_⟩
  · intro heq
    simp only at heq
    rcases Nat.lt_or_gt_of_ne x3 with h | h
    · have := hφ _ _ h x2; omega
    · have := hφ _ _ h x1; omega
  · intro hs
    exact hφ _ _ (x4 hs) x2
  · exact x5
  · rw [mem_linksOf] at he ⊢
    simp only
    rcases he with ⟨hc, he | he⟩ | ⟨hs, hc, he | he⟩ <;> injection he with p q
    · obtain ⟨rfl, rfl⟩ := pairId_inj h3 hy.1 p
      obtain ⟨rfl, rfl⟩ := pairId_inj h4 hy.2 q
      exact Or.inl ⟨hc, Or.inl rfl⟩
    · obtain ⟨rfl, rfl⟩ := pairId_inj h3 hy.2 p
      obtain ⟨rfl, rfl⟩ := pairId_inj h4 hy.1 q
      exact Or.inl ⟨hc, Or.inr rfl⟩
    · obtain ⟨rfl, rfl⟩ := pairId_inj h3 hy.1 p
      obtain ⟨rfl, rfl⟩ := pairId_inj h4 hy.2 q
      exact Or.inr ⟨hs, hc, Or.inl rfl⟩
    · obtain ⟨rfl, rfl⟩ := pairId_inj h3 hy.2 p
      obtain ⟨rfl, rfl⟩ := pairId_inj h4 hy.1 q
      exact Or.inr ⟨hs, hc, Or.inr rfl⟩

omit [LinearOrder D] [Inhabited D] in
/-- Which element of an entry is first does not matter if distances are symmetric and there is no
condition. -/
theorem linksOf_swap {N : Nat} {sym2 : Bool} {a b : Nat} {d : D} {y : PairDist D} {e : Nat × Nat}
    (h : e ∈ linksOf N true sym2 (fun _ _ _ _ => true) ⟨a, b, d⟩ y) :
    e ∈ linksOf N true sym2 (fun _ _ _ _ => true) ⟨b, a, d⟩ y := by
  rw [mem_linksOf] at h ⊢
  simp only at h ⊢
  rcases h with ⟨_, h | h⟩ | ⟨_, _, h | h⟩
  · exact Or.inr ⟨Or.inl trivial, trivial, Or.inl h⟩
  · exact Or.inr ⟨Or.inl trivial, trivial, Or.inr h⟩
  · exact Or.inl ⟨trivial, Or.inl h⟩
  · exact Or.inl ⟨trivial, Or.inr h⟩

/-- `build_edges` without a condition, with some of the elements of the first set in any order. -/
theorem buildMetric_embed {argLR argLR' : Bool} {cap cap' : Nat}
    {srt1 srt1' srt2 : List (PairDist D) → List (PairDist D)} {M M' N : Nat} {w : Window D}
    {d1 d2 : Nat → Nat → D} {sym1 sym2 : Bool}
    (hM : 1 ≤ M) (hM' : 1 ≤ M') (hN : 1 ≤ N) (hne : M = 1 ∨ 2 ≤ N) (hne' : M' = 1 ∨ 2 ≤ N)
    (hb : M * N < 2 ^ 27) (hb' : M' * N < 2 ^ 27) (hs1 : Sorts srt1) (hs1' : Sorts srt1')
    (hs2 : Sorts srt2) (hm : Monotone w.lo) {φ : Nat → Nat} (hr : ∀ i, i < M' → φ i < M)
    (hφ : ∀ i j, i < M' → j < M' → φ i = φ j → i = j)
    (hsym1 : sym1 = true → ∀ i j, d1 i j = d1 j i) :
    ∃ pg pg' S S', buildMetric argLR cap PyGraph.new srt1 srt2 M N w d1 sym1 d2 sym2 = .ok pg ∧
      buildMetric argLR' cap' PyGraph.new srt1' srt2 M' N w (fun i j => d1 (φ i) (φ j)) sym1 d2 sym2 =
        .ok pg' ∧
      Loaded pg (M * N) S ∧ Loaded pg' (M' * N) S' ∧
      ∀ i1 i2 j1 j2, i1 < M' → i2 < M' → j1 < N → j2 < N →
        S'.Adj (pairId N i1 j1) (pairId N i2 j2) →
        S.Adj (pairId N (φ i1) j1) (pairId N (φ i2) j2) := by
  rw [buildMetric_eq, buildMetric_eq]
  have hNb : N ≤ M * N := Nat.le_mul_of_pos_left _ hM
  have hp2 := sorted_pairs hs2 N sym2 d2
  obtain ⟨F, hF⟩ := exists_finds (N := N) (by omega) hs2 sym2 d2
  obtain ⟨pg, S, a1, a2, a3⟩ := buildBoth_linked (argLR := argLR) (cap := cap)
    (c := fun _ _ _ _ => true) (d1 := d1) (sym1 := sym1) hM hN hne hb hs1 hs2 hm hF
  obtain ⟨pg', S', b1, b2, b3⟩ := buildBoth_linked (argLR := argLR') (cap := cap')
    (c := fun _ _ _ _ => true) (d1 := fun i j => d1 (φ i) (φ j))
    (sym1 := sym1) hM' hN hne' hb' hs1' hs2 hm hF
  refine ⟨pg, pg', S, S', a1, b1, a2, b2, fun i1 i2 j1 j2 h1 h2 h3 h4 ha => ?_⟩
  obtain ⟨x, hx, j, hl, he⟩ := (b3 _ _).1 ha
  obtain ⟨x1, x2, x3, x4, x5⟩ := mem_pairList.1 hx
  have hN2 : 2 ≤ N := by omega
  have hy : ((srt2 (pairList N sym2 d2)).getD j default).first < N ∧
      ((srt2 (pairList N sym2 d2)).getD j default).second < N := by
    have hj : j < (srt2 (pairList N sym2 d2)).length := by
      have := (hF.total hN2).2 (w.hi x.dist)
      rw [hF.upper] at this
      exact lt_of_le_of_lt hl.2.2 this
    have := hp2 _ (mem_iff_getD.2 ⟨j, hj, rfl⟩)
    exact ⟨this.1, this.2.1⟩
  have hne : φ x.first ≠ φ x.second := fun heq => x3 (hφ _ _ x1 x2 heq)
  have he' : (pairId N (φ i1) j1, pairId N (φ i2) j2) ∈ linksOf N sym1 sym2 (fun _ _ _ _ => true)
      ⟨φ x.first, φ x.second, x.dist⟩ ((srt2 (pairList N sym2 d2)).getD j default) := by
    rw [mem_linksOf] at he ⊢
    simp only
    rcases he with ⟨hc, he | he⟩ | ⟨hs, hc, he | he⟩ <;> injection he with p q
    · obtain ⟨rfl, rfl⟩ := pairId_inj h3 hy.1 p
      obtain ⟨rfl, rfl⟩ := pairId_inj h4 hy.2 q
      exact Or.inl ⟨trivial, Or.inl rfl⟩
    · obtain ⟨rfl, rfl⟩ := pairId_inj h3 hy.2 p
      obtain ⟨rfl, rfl⟩ := pairId_inj h4 hy.1 q
      exact Or.inl ⟨trivial, Or.inr rfl⟩
    · obtain ⟨rfl, rfl⟩ := pairId_inj h3 hy.1 p
      obtain ⟨rfl, rfl⟩ := pairId_inj h4 hy.2 q
      exact Or.inr ⟨hs, trivial, Or.inl rfl⟩
    · obtain ⟨rfl, rfl⟩ := pairId_inj h3 hy.2 p
      obtain ⟨rfl, rfl⟩ := pairId_inj h4 hy.1 q
      exact Or.inr ⟨hs, trivial, Or.inr rfl⟩
  by_cases ho : sym1 = true ∧ φ x.second < φ x.first
  · obtain ⟨rfl, ho⟩ := ho
    refine (a3 _ _).2 ⟨⟨φ x.second, φ x.first, x.dist⟩, mem_pairList.2 ⟨hr _ x2, hr _ x1, hne.symm,
      fun _ => ho, ?_⟩, j, hl, linksOf_swap he'⟩
    exact x5.trans (hsym1 rfl _ _)
  · refine (a3 _ _).2 ⟨⟨φ x.first, φ x.second, x.dist⟩, mem_pairList.2 ⟨hr _ x1, hr _ x2, hne,
      fun hs => ?_, x5⟩, j, hl, he'⟩
    simp only
    by_contra hn
    exact ho ⟨hs, by omega⟩

end

end CM
