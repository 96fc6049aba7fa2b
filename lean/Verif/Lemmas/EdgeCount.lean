import Verif.Lemmas.History

/-! # Counting edges -/

namespace CM

open Spec Graph

variable {S : SimpleGraph Nat} {n : Nat}

/-- A list of the edges, each once, has `edgeCount` members. -/
theorem edgeCount_list (hr : ∀ u v, S.Adj u v → (1 ≤ u ∧ u ≤ n) ∧ (1 ≤ v ∧ v ≤ n))
    {es : List (Nat × Nat)} (hs : es.Nodup)
    (hm : ∀ e, e ∈ es ↔ e.1 < e.2 ∧ S.Adj e.1 e.2) : es.length = edgeCount S n := by
  classical
  rw [← List.toFinset_card_of_nodup hs]
  unfold edgeCount
  congr 1
  ext e
  simp only [List.mem_toFinset, hm, Finset.mem_filter, Finset.mem_product, Finset.mem_Icc]
  constructor
  · intro h; exact ⟨hr _ _ h.2, h⟩
  · intro h; exact h.2

theorem lexLt_nodup {es : List (Nat × Nat)} (h : es.Pairwise lexLt) : es.Nodup := by
  refine h.imp ?_
  intro a b hab he
  subst he
  unfold lexLt at hab; omega

open Classical in
/-- Counting both orientations counts every edge twice. -/
theorem card_adj (S : SimpleGraph Nat) (n : Nat) :
    ((Finset.Icc 1 n ×ˢ Finset.Icc 1 n).filter fun e => S.Adj e.1 e.2).card = 2 * edgeCount S n := by
  have hsplit : (Finset.Icc 1 n ×ˢ Finset.Icc 1 n).filter (fun e => S.Adj e.1 e.2) =
      ((Finset.Icc 1 n ×ˢ Finset.Icc 1 n).filter fun e => e.1 < e.2 ∧ S.Adj e.1 e.2) ∪
      (((Finset.Icc 1 n ×ˢ Finset.Icc 1 n).filter fun e => e.1 < e.2 ∧ S.Adj e.1 e.2).image
        Prod.swap) := by
    ext e
    simp only [Finset.mem_union, Finset.mem_image, Finset.mem_filter, Finset.mem_product]
    constructor
    · rintro ⟨h1, h2⟩
      rcases Nat.lt_or_gt_of_ne h2.ne with h | h
      · exact Or.inl ⟨h1, h, h2⟩
      · exact Or.inr ⟨(e.2, e.1), ⟨⟨h1.2, h1.1⟩, h, h2.symm⟩, rfl⟩
    · rintro (h | ⟨x, h, rfl⟩)
      · exact ⟨h.1, h.2.2⟩
      · exact ⟨⟨h.1.2, h.1.1⟩, h.2.2.symm⟩
  rw [hsplit, Finset.card_union_of_disjoint, Finset.card_image_of_injective _ Prod.swap_injective]
  · unfold edgeCount; omega
  · rw [Finset.disjoint_left]
    intro e h1 h2
    simp only [Finset.mem_image, Finset.mem_filter] at h1 h2
    obtain ⟨x, h2, rfl⟩ := h2
    have := h1.2.1
    have := h2.2.1
    simp only [Prod.fst_swap, Prod.snd_swap] at *
    omega

/-- Edge lists without loops or repetitions. -/
theorem rows_count {rows : List (Nat × Nat)} (hv : ValidRows rows n)
    (hl : ∀ r ∈ rows, r.1 ≠ r.2)
    (hn : (rows.map fun r => (min r.1 r.2, max r.1 r.2)).Nodup) :
    rows.length = edgeCount (ofPairs rows) n := by
  rw [← edgeCount_list (n := n) (es := rows.map fun r => (min r.1 r.2, max r.1 r.2)), List.length_map]
  · rintro u v ⟨_, h | h⟩
    · exact hv _ h
    · exact ⟨(hv _ h).2, (hv _ h).1⟩
  · exact hn
  · rintro ⟨u, v⟩
    simp only [List.mem_map, Prod.mk.injEq, ofPairs]
    constructor
    · rintro ⟨⟨a, b⟩, hr, h1, h2⟩
      have := hl _ hr
      simp only at *
      rcases Nat.lt_or_gt_of_ne this with h | h
      · have e1 : a = u := by omega
        have e2 : b = v := by omega
        subst e1 e2
        exact ⟨h, by omega, Or.inl hr⟩
      · have e1 : b = u := by omega
        have e2 : a = v := by omega
        subst e1 e2
        exact ⟨h, by omega, Or.inr hr⟩
    · rintro ⟨h, _, hr | hr⟩
      · exact ⟨_, hr, by simp only; omega, by simp only; omega⟩
      · exact ⟨_, hr, by simp only; omega, by simp only; omega⟩

/-- Symmetric matrices. -/
theorem offDiag_count {A : Nat → Nat → Bool} (hs : ∀ i j, i < n → j < n → A i j = A j i) :
    offDiag n A / 2 = edgeCount (ofMatrix n A) n := by
  classical
  have h : offDiag n A = 2 * edgeCount (ofMatrix n A) n := by
    rw [← card_adj]
    unfold offDiag
    rw [← Finset.card_sigma]
    apply Finset.card_bij' (i := fun (x : (_ : Nat) × Nat) _ => (x.1 + 1, x.2 + 1))
      (j := fun (e : Nat × Nat) _ => ⟨e.1 - 1, e.2 - 1⟩)
    · rintro ⟨i, j⟩ h
      simp only [Finset.mem_sigma, Finset.mem_range, Finset.mem_filter] at h
      rw [Finset.mem_filter, Finset.mem_product, Finset.mem_Icc, Finset.mem_Icc]
      simp only [ofMatrix]
      refine ⟨⟨⟨by omega, by omega⟩, by omega, by omega⟩, by omega, ⟨by omega, by omega⟩,
        ⟨by omega, by omega⟩, ?_⟩
      exact Or.inl h.2.2.1
    · rintro ⟨u, v⟩ h
      rw [Finset.mem_filter, Finset.mem_product, Finset.mem_Icc, Finset.mem_Icc] at h
      simp only [ofMatrix] at h
      simp only [Finset.mem_sigma, Finset.mem_range, Finset.mem_filter]
      refine ⟨by omega, by omega, ?_, by omega⟩
      rcases h.2.2.2.2 with h1 | h1
      · exact h1
      · rw [hs _ _ (by omega) (by omega)]; exact h1
    · rintro ⟨i, j⟩ h; simp
    · rintro ⟨u, v⟩ h
      simp only [Finset.mem_filter, Finset.mem_product, Finset.mem_Icc] at h
      simp only [Prod.mk.injEq]; omega
  omega

theorem sum_getD : ∀ (l : List Nat), l.sum = ∑ i ∈ Finset.range l.length, l.getD i 0 := by
  intro l
  induction l with
  | nil => simp
  | cons x l ih =>
    rw [List.sum_cons, List.length_cons, Finset.sum_range_succ', ih]
    simp [Nat.add_comm]

/-- Neighbour sets. -/
theorem entries_count {sets : List (List Nat)} (hv : ValidSets sets n)
    (hn : ∀ s ∈ sets, s.Nodup) : entries sets / 2 = edgeCount (ofSets sets) n := by
  classical
  have h : entries sets = 2 * edgeCount (ofSets sets) n := by
    rw [← card_adj]
    unfold entries
    rw [sum_getD, List.length_map, hv.len]
    have hc : ∀ i ∈ Finset.range (n + 1), (sets.map List.length).getD i 0 =
        (sets.getD i []).toFinset.card := by
      intro i hi
      rw [Finset.mem_range] at hi
      have hi' : i < sets.length := by have := hv.len; omega
      rw [List.toFinset_card_of_nodup]
      · simp [List.getD_eq_getElem?_getD, hi']
      · apply hn
        simp [List.getD_eq_getElem?_getD, hi']
    rw [Finset.sum_congr rfl hc, ← Finset.card_sigma]
    apply Finset.card_bij' (i := fun (x : (_ : Nat) × Nat) _ => (x.1, x.2))
      (j := fun (e : Nat × Nat) _ => ⟨e.1, e.2⟩)
    · rintro ⟨i, j⟩ h
      simp only [Finset.mem_sigma, Finset.mem_range, List.mem_toFinset] at h
      have he := hv.entry i (by omega) j h.2
      rw [Finset.mem_filter, Finset.mem_product, Finset.mem_Icc, Finset.mem_Icc]
      simp only [ofSets]
      refine ⟨⟨⟨?_, by omega⟩, by omega⟩, fun h => he.2.1 h.symm, Or.inl h.2⟩
      by_contra h0
      have h0' : i = 0 := by omega
      subst h0'
      rw [hv.zero] at h
      simp at h
    · rintro ⟨u, v⟩ h
      rw [Finset.mem_filter, Finset.mem_product, Finset.mem_Icc, Finset.mem_Icc] at h
      simp only [ofSets] at h
      simp only [Finset.mem_sigma, Finset.mem_range, List.mem_toFinset]
      refine ⟨by omega, ?_⟩
      rcases h.2.2 with h1 | h1
      · exact h1
      · exact (hv.entry v (by omega) u h1).2.2
    · rintro ⟨i, j⟩ h; rfl
    · rintro ⟨u, v⟩ h; rfl
  omega

end CM
