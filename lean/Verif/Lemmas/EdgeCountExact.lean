import Verif.Lemmas.EdgeCount

/-! # When `n_edges` is the number of edges -/

namespace CM

open Spec

variable {n : Nat}

theorem rows_count_iff {rows : List (Nat × Nat)} (hv : ValidRows rows n) :
    edgeCount (ofPairs rows) n ≤ rows.length ∧
    (rows.length = edgeCount (ofPairs rows) n ↔
      (∀ r ∈ rows, r.1 ≠ r.2) ∧ (rows.map fun r => (min r.1 r.2, max r.1 r.2)).Nodup) := by
  have hc : (((rows.filter fun r => r.1 ≠ r.2).map fun r =>
      (min r.1 r.2, max r.1 r.2)).dedup).length = edgeCount (ofPairs rows) n := by
    apply edgeCount_list
    · rintro u v ⟨_, h | h⟩
      · exact hv _ h
      · exact ⟨(hv _ h).2, (hv _ h).1⟩
    · exact List.nodup_dedup _
    · rintro ⟨u, v⟩
      simp only [List.mem_dedup, List.mem_map, List.mem_filter, decide_eq_true_eq, Prod.mk.injEq,
        ofPairs]
      constructor
      · rintro ⟨⟨a, b⟩, ⟨hr, this⟩, h1, h2⟩
        simp only at *
        rcases Nat.lt_or_gt_of_ne this with h | h
        · have e1 : a = u := by omega
          have e2 : b = v := by omega
          subst e1 e2
          exact ⟨h, by omega, Or.inl hr⟩
        · have e1 : b = u := by omega
          have e2 : a = v := by omega
          subst e1 e2
          exact ⟨h, by omega, Or.inr hr⟩
      · rintro ⟨h, _, hr | hr⟩
        · exact ⟨_, ⟨hr, by simp only; omega⟩, by simp only; omega, by simp only; omega⟩
        · exact ⟨_, ⟨hr, by simp only; omega⟩, by simp only; omega, by simp only; omega⟩
  have h1 := (List.dedup_sublist ((rows.filter fun r => r.1 ≠ r.2).map fun r =>
      (min r.1 r.2, max r.1 r.2))).length_le
  rw [hc, List.length_map] at h1
  have h2 := (List.filter_sublist (p := fun r : Nat × Nat => decide (r.1 ≠ r.2)) (l := rows)).length_le
  refine ⟨h1.trans h2, ?_, fun h => rows_count hv h.1 h.2⟩
  intro he
  have hf : rows.filter (fun r : Nat × Nat => decide (r.1 ≠ r.2)) = rows :=
    List.filter_sublist.eq_of_length (by omega)
  refine ⟨fun r hr => ?_, ?_⟩
  · rw [← hf] at hr
    simpa using (List.mem_filter.1 hr).2
  · have := (List.dedup_sublist ((rows.filter fun r => r.1 ≠ r.2).map fun r =>
      (min r.1 r.2, max r.1 r.2))).eq_of_length (by
        rw [hc, List.length_map, hf]; exact he.symm)
    rw [hf] at this
    rw [← this]
    exact List.nodup_dedup _

theorem offDiag_count_iff {A : Nat → Nat → Bool} :
    offDiag n A / 2 ≤ edgeCount (ofMatrix n A) n ∧
    (offDiag n A / 2 = edgeCount (ofMatrix n A) n ↔ ∀ i j, i < n → j < n → A i j = A j i) := by
  classical
  have h : offDiag n A = ((Finset.Icc 1 n ×ˢ Finset.Icc 1 n).filter fun e : Nat × Nat =>
      e.1 ≠ e.2 ∧ A (e.1 - 1) (e.2 - 1) = true).card := by
    unfold offDiag
    rw [← Finset.card_sigma]
    apply Finset.card_bij' (i := fun (x : (_ : Nat) × Nat) _ => (x.1 + 1, x.2 + 1))
      (j := fun (e : Nat × Nat) _ => ⟨e.1 - 1, e.2 - 1⟩)
    · rintro ⟨i, j⟩ h
      simp only [Finset.mem_sigma, Finset.mem_range, Finset.mem_filter] at h
      rw [Finset.mem_filter, Finset.mem_product, Finset.mem_Icc, Finset.mem_Icc]
      simp only [Nat.add_sub_cancel]
      exact ⟨⟨⟨by omega, by omega⟩, by omega, by omega⟩, by omega, h.2.2.1⟩
    · rintro ⟨u, v⟩ h
      rw [Finset.mem_filter, Finset.mem_product, Finset.mem_Icc, Finset.mem_Icc] at h
      simp only [Finset.mem_sigma, Finset.mem_range, Finset.mem_filter]
      exact ⟨by omega, by omega, h.2.2, by omega⟩
    · rintro ⟨i, j⟩ h; simp
    · rintro ⟨u, v⟩ h
      simp only [Finset.mem_filter, Finset.mem_product, Finset.mem_Icc] at h
      simp only [Prod.mk.injEq]; omega
  have hsub : ((Finset.Icc 1 n ×ˢ Finset.Icc 1 n).filter fun e : Nat × Nat =>
      e.1 ≠ e.2 ∧ A (e.1 - 1) (e.2 - 1) = true) ⊆
      (Finset.Icc 1 n ×ˢ Finset.Icc 1 n).filter fun e => (ofMatrix n A).Adj e.1 e.2 := by
    intro e he
    rw [Finset.mem_filter, Finset.mem_product, Finset.mem_Icc, Finset.mem_Icc] at he
    rw [Finset.mem_filter, Finset.mem_product, Finset.mem_Icc, Finset.mem_Icc]
    exact ⟨he.1, he.2.1, he.1.1, he.1.2, Or.inl he.2.2⟩
  have hle := Finset.card_le_card hsub
  rw [← h, card_adj] at hle
  refine ⟨by omega, ?_, fun hs => offDiag_count hs⟩
  intro he
  have heq := Finset.eq_of_subset_of_card_le hsub (by rw [← h, card_adj]; omega)
  have one : ∀ i j, i < n → j < n → A i j = true → A j i = true := by
    intro i j hi hj hA
    by_cases hij : i = j
    · subst hij; exact hA
    · have : (j + 1, i + 1) ∈ (Finset.Icc 1 n ×ˢ Finset.Icc 1 n).filter fun e : Nat × Nat =>
          (ofMatrix n A).Adj e.1 e.2 := by
        rw [Finset.mem_filter, Finset.mem_product, Finset.mem_Icc, Finset.mem_Icc]
        exact ⟨⟨⟨by omega, by omega⟩, by omega, by omega⟩, by simp only; omega,
          ⟨by omega, by omega⟩, ⟨by omega, by omega⟩, Or.inr hA⟩
      rw [← heq, Finset.mem_filter] at this
      exact this.2.2
  intro i j hi hj
  rw [Bool.eq_iff_iff]
  exact ⟨one i j hi hj, one j i hj hi⟩

end CM
