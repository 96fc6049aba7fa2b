import Verif.Lemmas.Basic
import Verif.Model.Utils
import Mathlib.Logic.Equiv.Basic
import Mathlib.Data.Finset.Card
import Mathlib.Order.Interval.Finset.Nat
import Mathlib.Algebra.BigOperators.Group.Finset.Basic
import Mathlib.Tactic.ByContra

/-! # Sorting the edge arrays: `insertionSort` (utils.cpp:15-27) -/

namespace CM

/-- Entry `p` of an edge array. -/
def ev (a : Edges) (p : Nat) : Nat × Nat := a.getD p (0, 0)

/-- Lexicographic order on edges. -/
def lexLe (x y : Nat × Nat) : Prop := x.1 < y.1 ∨ (x.1 = y.1 ∧ x.2 ≤ y.2)

theorem lexLe_refl (x : Nat × Nat) : lexLe x x := Or.inr ⟨rfl, Nat.le_refl _⟩

theorem lexLe.trans {x y z : Nat × Nat} (h : lexLe x y) (h' : lexLe y z) : lexLe x z := by
  unfold lexLe at *; omega

theorem pairGt_iff (x y : Nat × Nat) : pairGt x y = true ↔ ¬ lexLe x y := by
  unfold pairGt lexLe
  split <;> simp only [decide_eq_true_eq] <;> omega

theorem lexLe_of_gt {x y : Nat × Nat} (h : pairGt x y = true) : lexLe y x := by
  rw [pairGt_iff] at h; unfold lexLe at *; omega

/-- `a'` is `a` rearranged inside `[s, e)`. -/
def PermOn (s e : Nat) (a a' : Edges) : Prop :=
  a'.length = a.length ∧ ∃ σ : Equiv.Perm Nat, (∀ p, ¬ (s ≤ p ∧ p < e) → σ p = p) ∧
    ∀ p, ev a' p = ev a (σ p)

namespace PermOn

variable {s e : Nat} {a a' a'' : Edges}

theorem refl (s e : Nat) (a : Edges) : PermOn s e a a := ⟨rfl, Equiv.refl _, by simp, by simp⟩

theorem trans (h : PermOn s e a a') (h' : PermOn s e a' a'') : PermOn s e a a'' := by
  obtain ⟨l, σ, h1, h2⟩ := h
  obtain ⟨l', τ, h3, h4⟩ := h'
  refine ⟨l'.trans l, τ.trans σ, ?_, ?_⟩
  · intro p hp; simp [h3 p hp, h1 p hp]
  · intro p; rw [h4, h2]; rfl

theorem mono {s' e' : Nat} (h : PermOn s e a a') (hs : s' ≤ s) (he : e ≤ e') :
    PermOn s' e' a a' := by
  obtain ⟨l, σ, h1, h2⟩ := h
  exact ⟨l, σ, fun p hp => h1 p (by omega), h2⟩

theorem outside (h : PermOn s e a a') {p : Nat} (hp : ¬ (s ≤ p ∧ p < e)) : ev a' p = ev a p := by
  obtain ⟨_, σ, h1, h2⟩ := h
  rw [h2, h1 p hp]

theorem inside_aux {σ : Equiv.Perm Nat} (h : ∀ p, ¬ (s ≤ p ∧ p < e) → σ p = p) {p : Nat}
    (hp : s ≤ p ∧ p < e) : s ≤ σ p ∧ σ p < e := by
  by_contra hn
  have := h (σ p) hn
  have := σ.injective this
  rw [this] at hn
  exact hn hp

/-- Every entry of the new range comes from the old range. -/
theorem inside (h : PermOn s e a a') {p : Nat} (hp : s ≤ p ∧ p < e) :
    ∃ q, (s ≤ q ∧ q < e) ∧ ev a' p = ev a q := by
  obtain ⟨_, σ, h1, h2⟩ := h
  exact ⟨σ p, inside_aux h1 hp, h2 p⟩

theorem symm (h : PermOn s e a a') : PermOn s e a' a := by
  obtain ⟨l, σ, h1, h2⟩ := h
  refine ⟨l.symm, σ.symm, ?_, ?_⟩
  · intro p hp
    rw [Equiv.symm_apply_eq]; exact (h1 p hp).symm
  · intro p; rw [h2]; simp

theorem card (h : PermOn s e a a') (P : Nat × Nat → Prop) [DecidablePred P] :
    ((Finset.Ico s e).filter fun p => P (ev a' p)).card =
    ((Finset.Ico s e).filter fun p => P (ev a p)).card := by
  obtain ⟨_, σ, h1, h2⟩ := h
  apply Finset.card_bij (fun p _ => σ p)
  · intro p hp
    rw [Finset.mem_filter, Finset.mem_Ico] at hp ⊢
    exact ⟨inside_aux h1 hp.1, by rw [← h2]; exact hp.2⟩
  · intro p _ q _ h; exact σ.injective h
  · intro q hq
    rw [Finset.mem_filter, Finset.mem_Ico] at hq
    have h1' : ∀ p, ¬ (s ≤ p ∧ p < e) → σ.symm p = p := by
      intro p hp
      rw [Equiv.symm_apply_eq]; exact (h1 p hp).symm
    refine ⟨σ.symm q, ?_, by simp⟩
    rw [Finset.mem_filter, Finset.mem_Ico]
    exact ⟨inside_aux h1' hq.1, by rw [h2]; simpa using hq.2⟩

/-- Membership in the whole array is unchanged. -/
theorem mem (h : PermOn s e a a') (he : e ≤ a.length) {x : Nat × Nat} : x ∈ a' → x ∈ a := by
  intro hx
  obtain ⟨i, hi, rfl⟩ := List.getElem_of_mem hx
  have hl := h.1
  have key : a'[i] = ev a' i := by unfold ev; simp [List.getD, hi]
  rw [key]
  by_cases hr : s ≤ i ∧ i < e
  · obtain ⟨q, hq, h2⟩ := h.inside hr
    rw [h2]
    have hql : q < a.length := by omega
    have : ev a q = a[q] := by unfold ev; simp [List.getD, hql]
    rw [this]; exact List.getElem_mem hql
  · rw [h.outside hr]
    have hil : i < a.length := by omega
    have : ev a i = a[i] := by unfold ev; simp [List.getD, hil]
    rw [this]; exact List.getElem_mem hil

end PermOn

theorem ev_set {a : Edges} {i : Nat} (h : i < a.length) (x : Nat × Nat) (p : Nat) :
    ev (a.set i x) p = if p = i then x else ev a p := by
  unfold ev
  simp only [List.getD, List.getElem?_set]
  by_cases hp : i = p
  · subst hp; simp [h]
  · have : ¬ p = i := fun h => hp h.symm
    simp [hp, this]

theorem swapE_spec {a : Edges} {i j : Nat} (hi : i < a.length) (hj : j < a.length) :
    ∃ a', swapE a i j = .ok a' ∧ a'.length = a.length ∧
      ∀ p, ev a' p = ev a (Equiv.swap i j p) := by
  unfold swapE
  rw [rd_getD (0, 0) hi, ok_bind, rd_getD (0, 0) hj, ok_bind, wr_ok _ hi, ok_bind,
    wr_ok _ (by simpa using hj)]
  refine ⟨_, rfl, by simp, ?_⟩
  intro p
  rw [ev_set (by simpa using hj), ev_set hi, Equiv.swap_apply_def]
  by_cases h1 : p = j
  · subst h1
    by_cases h2 : p = i
    · subst h2; simp [ev]
    · simp [h2, ev]
  · by_cases h2 : p = i
    · subst h2; simp [h1, ev]
    · simp [h1, h2]

theorem swapE_permOn {a a' : Edges} {i j s e : Nat} (hl : a'.length = a.length)
    (h : ∀ p, ev a' p = ev a (Equiv.swap i j p)) (hi : s ≤ i ∧ i < e) (hj : s ≤ j ∧ j < e) :
    PermOn s e a a' := by
  refine ⟨hl, Equiv.swap i j, ?_, h⟩
  intro p hp
  exact Equiv.swap_apply_of_ne_of_ne (by rintro rfl; exact hp hi) (by rintro rfl; exact hp hj)

/-- Sorted on `[s, e)`. -/
def SortedOn (s e : Nat) (a : Edges) : Prop :=
  ∀ p q, s ≤ p → p < q → q < e → lexLe (ev a p) (ev a q)

/-- Sorted on `[s, e)` except that the entry at `j` may be too far right. -/
def SinkPre (s e j : Nat) (a : Edges) : Prop :=
  (∀ p q, s ≤ p → p < q → q < e → p ≠ j → q ≠ j → lexLe (ev a p) (ev a q)) ∧
  ∀ q, j < q → q < e → lexLe (ev a j) (ev a q)

theorem sink_spec {s e : Nat} : ∀ (j : Nat) (a : Edges), s ≤ j → j < e → e ≤ a.length →
    SinkPre s e j a → ∃ a', sink s j a = .ok a' ∧ PermOn s e a a' ∧ SortedOn s e a' := by
  intro j
  induction j with
  | zero =>
    intro a hs hj he h
    refine ⟨a, rfl, PermOn.refl _ _ _, ?_⟩
    intro p q h1 h2 h3
    by_cases hp : p = 0
    · subst hp; exact h.2 q h2 h3
    · exact h.1 p q h1 h2 h3 hp (by omega)
  | succ j ih =>
    intro a hs hj he h
    unfold sink
    by_cases h0 : j + 1 = s
    · rw [if_pos h0]
      refine ⟨a, rfl, PermOn.refl _ _ _, ?_⟩
      intro p q h1 h2 h3
      by_cases hp : p = j + 1
      · subst hp; exact h.2 q h2 h3
      · exact h.1 p q h1 h2 h3 hp (by omega)
    rw [if_neg h0, rd_getD (0, 0) (by omega), ok_bind, rd_getD (0, 0) (by omega), ok_bind]
    change ∃ a', (if pairGt (ev a j) (ev a (j + 1)) = true then _ else _) = _ ∧ _
    by_cases hg : pairGt (ev a j) (ev a (j + 1)) = true
    · rw [if_pos hg]
      obtain ⟨a1, b1, b2, b3⟩ := swapE_spec (a := a) (i := j + 1) (j := j) (by omega) (by omega)
      rw [b1, ok_bind]
      have e1 : ev a1 j = ev a (j + 1) := by rw [b3, Equiv.swap_apply_right]
      have e2 : ev a1 (j + 1) = ev a j := by rw [b3, Equiv.swap_apply_left]
      have e3 : ∀ p, p ≠ j → p ≠ j + 1 → ev a1 p = ev a p := by
        intro p h1 h2; rw [b3, Equiv.swap_apply_of_ne_of_ne h2 h1]
      obtain ⟨a', c1, c2, c3⟩ := ih a1 (by omega) (by omega) (by omega) (by
        refine ⟨?_, ?_⟩
        · intro p q h1 h2 h3 h4 h5
          by_cases hp : p = j + 1
          · subst hp
            rw [e2, e3 q (by omega) (by omega)]
            exact h.1 j q (by omega) (by omega) h3 (by omega) (by omega)
          · by_cases hq : q = j + 1
            · subst hq
              rw [e2, e3 p (by omega) (by omega)]
              exact h.1 p j (by omega) (by omega) (by omega) (by omega) (by omega)
            · rw [e3 p h4 hp, e3 q h5 hq]
              exact h.1 p q h1 h2 h3 hp hq
        · intro q h1 h2
          rw [e1]
          by_cases hq : q = j + 1
          · subst hq; rw [e2]; exact lexLe_of_gt hg
          · rw [e3 q (by omega) hq]; exact h.2 q (by omega) h2)
      exact ⟨a', c1, (swapE_permOn b2 b3 (by omega) (by omega)).trans c2, c3⟩
    · rw [if_neg hg]
      refine ⟨a, rfl, PermOn.refl _ _ _, ?_⟩
      have hle : lexLe (ev a j) (ev a (j + 1)) := by
        rw [pairGt_iff] at hg; by_contra h; exact hg h
      intro p q h1 h2 h3
      by_cases hp : p = j + 1
      · subst hp; exact h.2 q h2 h3
      · by_cases hq : q = j + 1
        · subst hq
          by_cases hpj : p = j
          · subst hpj; exact hle
          · exact (h.1 p j h1 (by omega) (by omega) hp (by omega)).trans hle
        · exact h.1 p q h1 h2 h3 hp hq

theorem insertionSort_spec {s e : Nat} {a : Edges} (hse : s < e) (he : e ≤ a.length) :
    ∃ a', insertionSort a s e = .ok a' ∧ PermOn s e a a' ∧ SortedOn s e a' := by
  unfold insertionSort
  obtain ⟨a', h1, h2, h3⟩ := forRange_rule (lo := s + 1) (hi := e) (s := a)
    (body := fun i a => sink s i a)
    (fun i a1 => PermOn s e a a1 ∧ SortedOn s i a1) (by omega)
    ⟨PermOn.refl _ _ _, by intro p q h1 h2 h3; omega⟩
    (by
      rintro k a1 hk1 hk2 ⟨b1, b2⟩
      obtain ⟨a2, c1, c2, c3⟩ := sink_spec (s := s) (e := k + 1) k a1 (by omega) (by omega)
        (by have := b1.1; omega)
        ⟨fun p q h1 h2 h3 h4 h5 => b2 p q h1 h2 (by omega), fun q h1 h2 => by omega⟩
      exact ⟨a2, c1, b1.trans (c2.mono (Nat.le_refl _) (by omega)), c3⟩)
  exact ⟨a', h1, h2, h3⟩

end CM
