import Verif.Props.Subset

/-! # Matchings of what is left of two sets -/

namespace CM

open Spec Graph

variable {M M' N N' : Nat}

/-- At most `K - K'` different numbers below `K` are not kept. -/
theorem Keeps.dropped {K K' : Nat} {φ : Nat → Nat} (h : Keeps K K' φ) {l : List Nat} (hl : l.Nodup)
    (hr : ∀ x ∈ l, x < K ∧ ∀ i, i < K' → φ i ≠ x) : l.length + K' ≤ K := by
  have h1 : (l ++ (List.range K').map φ).Nodup := by
    refine List.nodup_append.2 ⟨hl, ?_, ?_⟩
    · rw [List.Nodup, List.pairwise_map]
      refine List.Pairwise.imp_of_mem ?_ (List.nodup_range (n := K'))
      intro a b ha hb hne he
      exact hne (h.inj (List.mem_range.1 ha) (List.mem_range.1 hb) he)
    · intro a ha b hb he
      obtain ⟨i, hi, rfl⟩ := List.mem_map.1 hb
      exact (hr a ha).2 i (List.mem_range.1 hi) he.symm
  have h2 : l ++ (List.range K').map φ ⊆ List.range K := by
    intro x hx
    rw [List.mem_range]
    rcases List.mem_append.1 hx with hx | hx
    · exact (hr x hx).1
    · obtain ⟨i, hi, rfl⟩ := List.mem_map.1 hx
      exact h.range i (List.mem_range.1 hi)
  have := (h1.subperm h2).length_le
  simpa using this

theorem length_filter_le {α : Type} (p q : α → Prop) [DecidablePred p] [DecidablePred q] (l : List α) :
    l.length ≤ (l.filter fun x => p x ∧ q x).length + (l.filter fun x => ¬ p x).length +
      (l.filter fun x => ¬ q x).length := by
  induction l with
  | nil => simp
  | cons x xs ih =>
    by_cases hp : p x <;> by_cases hq : q x <;> simp [hp, hq] <;> simp at ih <;> omega

/-- Of a matching, all pairs but as many as there are elements left out are pairs of elements that are
kept. -/
theorem IsMatching.part {φ ψ : Nat → Nat} (hφ : Keeps M M' φ) (hψ : Keeps N N' ψ)
    {ps : List (Nat × Nat)} (h : IsMatching M N ps) :
    ∃ ps', IsMatching M' N' ps' ∧ (∀ p ∈ ps', (φ p.1, ψ p.2) ∈ ps) ∧
      ps.length + M' + N' ≤ ps'.length + M + N := by
  classical
  have inv : ∀ {K K' : Nat} {θ : Nat → Nat}, Keeps K K' θ → ∃ g : Nat → Nat,
      ∀ x, (∃ i, i < K' ∧ θ i = x) → g x < K' ∧ θ (g x) = x := by
    intro K K' θ _
    refine ⟨fun x => if hx : ∃ i, i < K' ∧ θ i = x then hx.choose else 0, fun x hx => ?_⟩
    simp only [dif_pos hx]
    exact hx.choose_spec
  obtain ⟨f, hf⟩ := inv hφ
  obtain ⟨g, hg⟩ := inv hψ
  let P : Nat × Nat → Prop := fun p => ∃ i, i < M' ∧ φ i = p.1
  let Q : Nat × Nat → Prop := fun p => ∃ j, j < N' ∧ ψ j = p.2
  have hk : ∀ p ∈ ps.filter (fun p => P p ∧ Q p), p ∈ ps ∧ P p ∧ Q p := by
    intro p hp
    rw [List.mem_filter, decide_eq_true_eq] at hp
    exact hp
  have nd1 := h.first.sublist ((List.filter_sublist (p := fun p => P p ∧ Q p) (l := ps)).map Prod.fst)
  have nd2 := h.second.sublist ((List.filter_sublist (p := fun p => P p ∧ Q p) (l := ps)).map Prod.snd)
  refine ⟨(ps.filter fun p => P p ∧ Q p).map fun p => (f p.1, g p.2), ⟨?_, ?_, ?_⟩, ?_, ?_⟩
  · intro p hp
    obtain ⟨q, hq, rfl⟩ := List.mem_map.1 hp
    obtain ⟨_, h1, h2⟩ := hk q hq
    exact ⟨(hf _ h1).1, (hg _ h2).1⟩
  · rw [List.map_map]
    rw [List.Nodup, List.pairwise_map] at nd1 ⊢
    refine List.Pairwise.imp_of_mem ?_ nd1
    intro a b ha hb hne he
    have he : f a.1 = f b.1 := he
    exact hne (by rw [← (hf _ (hk a ha).2.1).2, ← (hf _ (hk b hb).2.1).2, he])
  · rw [List.map_map]
    rw [List.Nodup, List.pairwise_map] at nd2 ⊢
    refine List.Pairwise.imp_of_mem ?_ nd2
    intro a b ha hb hne he
    have he : g a.2 = g b.2 := he
    exact hne (by rw [← (hg _ (hk a ha).2.2).2, ← (hg _ (hk b hb).2.2).2, he])
  · intro p hp
    obtain ⟨q, hq, rfl⟩ := List.mem_map.1 hp
    obtain ⟨h0, h1, h2⟩ := hk q hq
    simp only [(hf _ h1).2, (hg _ h2).2]
    exact h0
  · rw [List.length_map]
    have h0 := length_filter_le P Q ps
    have h1 := hφ.dropped (l := (ps.filter fun p => ¬ P p).map Prod.fst)
      (h.first.sublist (List.filter_sublist.map _)) (by
        intro x hx
        obtain ⟨p, hp, rfl⟩ := List.mem_map.1 hx
        rw [List.mem_filter, decide_eq_true_eq] at hp
        exact ⟨(h.range p hp.1).1, fun i hi he => hp.2 ⟨i, hi, he⟩⟩)
    have h2 := hψ.dropped (l := (ps.filter fun p => ¬ Q p).map Prod.snd)
      (h.second.sublist (List.filter_sublist.map _)) (by
        intro x hx
        obtain ⟨p, hp, rfl⟩ := List.mem_map.1 hx
        rw [List.mem_filter, decide_eq_true_eq] at hp
        exact ⟨(h.range p hp.1).2, fun i hi he => hp.2 ⟨i, hi, he⟩⟩)
    rw [List.length_map] at h1 h2
    omega

/-- `build_edges_with_condition` with elements of the first set left out keeps all the edges between
the others. -/
theorem buildBoth_rest {D : Type} [LinearOrder D] [Inhabited D] {argLR argLR' : Bool} {cap cap' : Nat}
    {srt1 srt1' srt2 : List (PairDist D) → List (PairDist D)} {M M' N : Nat} {w : Window D}
    {c : Nat → Nat → Nat → Nat → Bool} {d1 d2 : Nat → Nat → D} {sym1 sym2 : Bool}
    (hM : 1 ≤ M) (hM' : 1 ≤ M') (hN : 1 ≤ N) (hne : M = 1 ∨ 2 ≤ N) (hne' : M' = 1 ∨ 2 ≤ N)
    (hb : M * N < 2 ^ 27) (hb' : M' * N < 2 ^ 27) (hs1 : Sorts srt1) (hs1' : Sorts srt1')
    (hs2 : Sorts srt2) (hm : Monotone w.lo) {φ : Nat → Nat} (hφ : Keeps M M' φ) :
    ∃ pg pg' S S', buildBoth argLR cap PyGraph.new srt1 srt2 M N w c d1 sym1 d2 sym2 = .ok pg ∧
      buildBoth argLR' cap' PyGraph.new srt1' srt2 M' N w (fun i1 i2 j1 j2 => c (φ i1) (φ i2) j1 j2)
        (fun i j => d1 (φ i) (φ j)) sym1 d2 sym2 = .ok pg' ∧
      Loaded pg (M * N) S ∧ Loaded pg' (M' * N) S' ∧
      ∀ i1 i2 j1 j2, i1 < M' → i2 < M' → j1 < N → j2 < N →
        S.Adj (pairId N (φ i1) j1) (pairId N (φ i2) j2) →
        S'.Adj (pairId N i1 j1) (pairId N i2 j2) := by
  have hNb : N ≤ M * N := Nat.le_mul_of_pos_left _ hM
  have hp2 := sorted_pairs hs2 N sym2 d2
  obtain ⟨F, hF⟩ := exists_finds (N := N) (by omega) hs2 sym2 d2
  obtain ⟨pg, S, a1, a2, a3⟩ := buildBoth_linked (argLR := argLR) (cap := cap) (c := c) (d1 := d1)
    (sym1 := sym1) hM hN hne hb hs1 hs2 hm hF
  obtain ⟨pg', S', b1, b2, b3⟩ := buildBoth_linked (argLR := argLR') (cap := cap')
    (c := fun i1 i2 j1 j2 => c (φ i1) (φ i2) j1 j2) (d1 := fun i j => d1 (φ i) (φ j))
    (sym1 := sym1) hM' hN hne' hb' hs1' hs2 hm hF
  refine ⟨pg, pg', S, S', a1, b1, a2, b2, fun i1 i2 j1 j2 h1 h2 h3 h4 ha => ?_⟩
  obtain ⟨x, hx, j, hl, he⟩ := (a3 _ _).1 ha
  obtain ⟨x1, x2, x3, x4, x5⟩ := mem_pairList.1 hx
  have hy : ((srt2 (pairList N sym2 d2)).getD j default).first < N ∧
      ((srt2 (pairList N sym2 d2)).getD j default).second < N := by
    have hN2 : 2 ≤ N := by omega
    have hj : j < (srt2 (pairList N sym2 d2)).length := by
      have := (hF.total hN2).2 (w.hi x.dist)
      rw [hF.upper] at this
      exact lt_of_le_of_lt hl.2.2 this
    have := hp2 _ (mem_iff_getD.2 ⟨j, hj, rfl⟩)
    exact ⟨this.1, this.2.1⟩
  have before : ∀ {a b : Nat}, a < M' → b < M' → φ a < φ b → a < b := by
    intro a b ha hb h
    rcases Nat.lt_trichotomy a b with h' | h' | h'
    · exact h'
    · subst h'; omega
    · have := hφ.order _ _ h' ha; omega
  obtain ⟨xf, xs, xd⟩ := x
  simp only at x1 x2 x3 x4 x5
  have key : ∀ {a b : Nat}, a < M' → b < M' → xf = φ a → xs = φ b →
      (⟨a, b, xd⟩ : PairDist D) ∈ pairList M' sym1 (fun i j => d1 (φ i) (φ j)) := by
    intro a b ha hb e1 e2
    subst e1 e2
    exact mem_pairList.2 ⟨ha, hb, fun e => x3 (by simp only at e; rw [e]),
      fun hs => before ha hb (x4 hs), x5⟩
  rw [mem_linksOf] at he
  simp only at he
  rcases he with ⟨hc, he | he⟩ | ⟨hs, hc, he | he⟩ <;> injection he with p q
  · obtain ⟨e1, e2⟩ := pairId_inj h3 hy.1 p
    obtain ⟨e3, e4⟩ := pairId_inj h4 hy.2 q
    refine (b3 _ _).2 ⟨_, key h1 h2 e1.symm e3.symm, j, hl, ?_⟩
    rw [mem_linksOf]
    simp only
    rw [e1, e3]
    exact Or.inl ⟨hc, Or.inl (by rw [e2, e4])⟩
  · obtain ⟨e1, e2⟩ := pairId_inj h3 hy.2 p
    obtain ⟨e3, e4⟩ := pairId_inj h4 hy.1 q
    refine (b3 _ _).2 ⟨_, key h2 h1 e3.symm e1.symm, j, hl, ?_⟩
    rw [mem_linksOf]
    simp only
    rw [e1, e3]
    exact Or.inl ⟨hc, Or.inr (by rw [e2, e4])⟩
  · obtain ⟨e1, e2⟩ := pairId_inj h3 hy.1 p
    obtain ⟨e3, e4⟩ := pairId_inj h4 hy.2 q
    refine (b3 _ _).2 ⟨_, key h2 h1 e3.symm e1.symm, j, hl, ?_⟩
    rw [mem_linksOf]
    simp only
    rw [e1, e3]
    exact Or.inr ⟨hs, hc, Or.inl (by rw [e2, e4])⟩
  · obtain ⟨e1, e2⟩ := pairId_inj h3 hy.2 p
    obtain ⟨e3, e4⟩ := pairId_inj h4 hy.1 q
    refine (b3 _ _).2 ⟨_, key h1 h2 e1.symm e3.symm, j, hl, ?_⟩
    rw [mem_linksOf]
    simp only
    rw [e1, e3]
    exact Or.inr ⟨hs, hc, Or.inr (by rw [e2, e4])⟩

end CM
