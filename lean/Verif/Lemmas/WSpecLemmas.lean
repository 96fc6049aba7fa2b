import Verif.SpecWeighted
import Verif.Lemmas.AllCliques

/-! # Facts about weights of lists and the order of vertices -/

namespace CM

open Spec

theorem weight_congr {ω ω' : Nat → Rat} {l : List Nat} (h : ∀ v ∈ l, ω v = ω' v) :
    weight ω l = weight ω' l := by
  unfold weight
  rw [List.map_congr_left h]

/-- In an increasing list, the members below the `m`-th are the first `m`. -/
theorem filter_lt_take : ∀ {l : List Nat}, l.Pairwise (· < ·) → ∀ {m : Nat} (hm : m < l.length),
    l.filter (fun x => decide (x < l[m])) = l.take m := by
  intro l
  induction l with
  | nil => intro _ m hm; simp at hm
  | cons x l ih =>
    intro h m hm
    rw [List.pairwise_cons] at h
    cases m with
    | zero =>
      simp only [List.getElem_cons_zero, List.take_zero]
      rw [List.filter_eq_nil_iff]
      intro y hy
      simp only [decide_eq_true_eq, not_lt]
      rcases List.mem_cons.1 hy with rfl | hy
      · exact Nat.le_refl _
      · exact Nat.le_of_lt (h.1 y hy)
    | succ m =>
      have hm' : m < l.length := by simpa using hm
      simp only [List.getElem_cons_succ, List.take_succ_cons]
      rw [List.filter_cons_of_pos (by simpa using h.1 _ (List.getElem_mem hm')), ih h.2 hm']

variable {n : Nat} {S : SimpleGraph Nat} {ω : Nat → Rat}

theorem WFirst.unique {u v : Nat} {l : List Nat} (h : WFirst S n ω u l)
    (h' : WFirst S n ω v l) : u = v := by
  by_contra hne
  have h1 := h.2 v h'.1 (fun e => hne e.symm)
  have h2 := h'.2 u h.1 hne
  rcases h1 with h1 | h1 <;> rcases h2 with h2 | h2
  · exact lt_asymm h1 h2
  · exact absurd h2.1.symm (ne_of_lt h1)
  · exact absurd h1.1.symm (ne_of_lt h2)
  · omega

/-- Every nonempty list has a first vertex. -/
theorem exists_wfirst (S : SimpleGraph Nat) (n : Nat) (ω : Nat → Rat) {l : List Nat}
    (hl : l ≠ []) : ∃ u, WFirst S n ω u l := by
  have hne : l.toFinset.Nonempty := by
    obtain ⟨x, xs, rfl⟩ := List.exists_cons_of_ne_nil hl
    exact ⟨x, by simp⟩
  obtain ⟨r0, h0, hmin⟩ := Finset.exists_min_image l.toFinset (fun u => wdegree S n ω u) hne
  obtain ⟨r, hr, hrm⟩ := Finset.exists_min_image
    (l.toFinset.filter fun u => wdegree S n ω u = wdegree S n ω r0) id
    ⟨r0, Finset.mem_filter.2 ⟨h0, rfl⟩⟩
  rw [Finset.mem_filter] at hr
  refine ⟨r, List.mem_toFinset.1 hr.1, ?_⟩
  intro u hu hne
  have hu := List.mem_toFinset.2 hu
  by_cases he : wdegree S n ω u = wdegree S n ω r0
  · have := hrm u (Finset.mem_filter.2 ⟨hu, he⟩)
    simp only [id] at this
    exact Or.inr ⟨by rw [hr.2, he], by omega⟩
  · exact Or.inl (by rw [hr.2]; exact lt_of_le_of_ne (hmin u hu) (fun e => he e.symm))

/-- Weights need to agree only on the members. -/
theorem reachedLast_congr {ω ω' : Nat → Rat} {W : Rat} {u : Nat} {l : List Nat}
    (h : ∀ v ∈ l, ω v = ω' v) (hu : u ∈ l) : ReachedLast ω W u l ↔ ReachedLast ω' W u l := by
  unfold ReachedLast
  rw [weight_congr h]
  have h2 : ∀ m, weight ω ((u :: l.erase u).take m) = weight ω' ((u :: l.erase u).take m) := by
    intro m
    apply weight_congr
    intro v hv
    rcases List.mem_cons.1 (List.mem_of_mem_take hv) with rfl | hv
    · exact h v hu
    · exact h v (List.mem_of_mem_erase hv)
  simp only [h2]

end CM
