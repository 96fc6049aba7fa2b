import Verif.Lemmas.Basic
import Verif.Model.Utils

/-! # `binary_find` on a strictly increasing slice -/

namespace CM

theorem binaryFind_spec {el : List Nat} {base N val : Nat} (hN : 0 < N)
    (hin : base + N ≤ el.length) (hlen : el.length < 2 ^ 63)
    (hsort : ∀ i j, i < j → j < N → el.getD (base + i) 0 < el.getD (base + j) 0) :
    ∃ f loc, binaryFind el base N val = .ok (f, loc) ∧ loc < N ∧
      (f = true ↔ ∃ i, i < N ∧ el.getD (base + i) 0 = val) ∧
      (f = true → el.getD (base + loc) 0 = val) ∧
      ∀ i, i < loc → el.getD (base + i) 0 < val := by
  have he : usub N 1 = N - 1 := usub_eq (by omega) (by omega)
  have hu : ∀ i, i < N → uadd base i = base + i := fun i hi => uadd_eq (by omega)
  have hr : ∀ i, i < N → rd el (base + i) = .ok (el.getD (base + i) 0) :=
    fun i hi => rd_getD 0 (by omega)
  unfold binaryFind
  simp only [he, hu (N - 1) (by omega), hu 0 hN, hr (N - 1) (by omega), hr 0 hN, ok_bind]
  by_cases h1 : el.getD (base + (N - 1)) 0 < val
  · rw [if_pos h1]
    have hall : ∀ i, i < N → el.getD (base + i) 0 < val := by
      intro i hi
      by_cases hi2 : i = N - 1
      · subst hi2; exact h1
      · exact Nat.lt_trans (hsort i (N - 1) (by omega) (by omega)) h1
    refine ⟨_, _, rfl, by omega, ?_, by simp, fun i hi => hall i (by omega)⟩
    simp only [Bool.false_eq_true, false_iff, not_exists, not_and]
    intro i hi h
    have := hall i hi; omega
  rw [if_neg h1]
  by_cases h2 : el.getD (base + 0) 0 > val
  · rw [if_pos h2]
    refine ⟨_, _, rfl, by omega, ?_, by simp, fun i hi => by omega⟩
    simp only [Bool.false_eq_true, false_iff, not_exists, not_and]
    intro i hi h
    by_cases hi2 : i = 0
    · subst hi2; omega
    · have := hsort 0 i (by omega) hi; omega
  rw [if_neg h2]
  obtain ⟨⟨f, loc⟩, hl, hq⟩ := loop_rule
    (body := fun (s : Nat × Nat × Nat) =>
      let (beg, en, loc) := s
      if beg ≤ en then do
        let loc := beg + (en - beg) / 2
        let x ← rd el (uadd base loc)
        if x = val then .ok (.inr (true, loc))
        else if x < val then .ok (.inl (loc + 1, en, loc))
        else .ok (.inl (beg, usub loc 1, loc))
      else .ok (.inr (false, loc)))
    (fun (s : Nat × Nat × Nat) => s.1 ≤ s.2.1 + 1 ∧ s.2.1 < N ∧
      (∀ i, i < s.1 → el.getD (base + i) 0 < val) ∧
      (∀ i, s.2.1 < i → i < N → val < el.getD (base + i) 0) ∧
      (s.1 = s.2.1 + 1 → s.2.2 ≤ s.1 ∧ s.2.2 < N))
    (fun (r : Bool × Nat) => r.2 < N ∧
      (r.1 = true ↔ ∃ i, i < N ∧ el.getD (base + i) 0 = val) ∧
      (r.1 = true → el.getD (base + r.2) 0 = val) ∧
      ∀ i, i < r.2 → el.getD (base + i) 0 < val)
    (fun s => s.2.1 + 1 - s.1)
    (by
      rintro ⟨beg, en, loc⟩ ⟨a1, a2, a3, a4, a5⟩
      simp only at a1 a2 a3 a4 a5 ⊢
      by_cases hle : beg ≤ en
      · have hm : beg + (en - beg) / 2 < N := by omega
        have hmid : ∃ mid, mid = beg + (en - beg) / 2 := ⟨_, rfl⟩
        obtain ⟨mid, hmid⟩ := hmid
        rw [← hmid] at hm ⊢
        simp only [hle, if_true, hu mid hm, hr mid hm, ok_bind]
        by_cases hx : el.getD (base + mid) 0 = val
        · right
          refine ⟨_, by rw [if_pos hx], hm, ?_, fun _ => hx, ?_⟩
          · simp only [true_iff]; exact ⟨mid, hm, hx⟩
          · intro i hi; rw [← hx]; exact hsort i mid hi hm
        · rw [if_neg hx]
          left
          by_cases hx2 : el.getD (base + mid) 0 < val
          · rw [if_pos hx2]
            refine ⟨_, rfl, ⟨by simp only; omega, a2, ?_, a4, by simp only; intro; constructor <;> omega⟩,
              by simp only; omega⟩
            simp only
            intro i hi
            by_cases hi2 : i = mid
            · rw [hi2]; exact hx2
            · exact Nat.lt_trans (hsort i mid (by omega) hm) hx2
          · rw [if_neg hx2]
            have hpos : 0 < mid := by
              rcases Nat.eq_zero_or_pos mid with h0 | h0
              · rw [h0] at hx hx2; omega
              · exact h0
            have hus : usub mid 1 = mid - 1 := usub_eq (by omega) (by omega)
            rw [hus]
            refine ⟨_, rfl, ⟨by simp only; omega, by simp only; omega, a3, ?_, by simp only; intro; constructor <;> omega⟩,
              by simp only; omega⟩
            simp only
            intro i hi hiN
            by_cases hi2 : i = mid
            · rw [hi2]; omega
            · have := hsort mid i (by omega) hiN; omega
      · simp only [hle, if_false]
        right
        have h5 := a5 (by omega)
        refine ⟨_, rfl, h5.2, ?_, by simp, fun i hi => a3 i (by simp only at hi; omega)⟩
        simp only [Bool.false_eq_true, false_iff, not_exists, not_and]
        intro i hi
        by_cases hi2 : i < beg
        · have := a3 i hi2; omega
        · have := a4 i (by omega) hi; omega)
    (s := (0, N - 1, 0)) (fuel := N + 2)
    ⟨by omega, by simp only; omega, by simp, fun i h1 h2 => by simp only at h1; omega,
      by simp only; intro h; omega⟩
    (by simp only; omega)
  exact ⟨f, loc, hl, hq⟩

/-- The wrap-around case `N = 0` (dfs_recurse.cpp:135, enumerate.cpp:151). -/
theorem binaryFind_zero {el : List Nat} {base val : Nat} (hb : 0 < base)
    (hin : base ≤ el.length) (hlen : el.length < 2 ^ 63)
    (hlt : el.getD (base - 1) 0 < val) :
    binaryFind el base 0 val = .ok (false, 2 ^ 64 - 1) := by
  unfold binaryFind
  have h1 : uadd base (2 ^ 64 - 1) = base - 1 := by
    unfold uadd
    have : base + (2 ^ 64 - 1) = (base - 1) + 2 ^ 64 := by omega
    rw [this, Nat.add_mod_right, Nat.mod_eq_of_lt (by omega)]
  simp only [usub_zero_one, h1]
  rw [rd_getD 0 (by omega : base - 1 < el.length), ok_bind, if_pos hlt]

end CM
