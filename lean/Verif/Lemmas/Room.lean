import Verif.Lemmas.AllCliques
import Verif.Lemmas.EdgeCount

/-! # When the constructor leaves the word buffer in place -/

namespace CM

open Spec Graph

variable {n : Nat} {S : SimpleGraph Nat} {G : Graph}

/-- The sum of the degrees is twice the number of edges. -/
theorem sum_degree (S : SimpleGraph Nat) (n : Nat) :
    ∑ v ∈ Finset.Icc 1 n, degree S n v = 2 * edgeCount S n := by
  classical
  rw [← card_adj, Finset.card_filter, Finset.sum_product]
  apply Finset.sum_congr rfl
  intro v _
  unfold degree
  rw [Finset.card_filter]

theorem sum_upto (f : Nat → Nat) (n : Nat) :
    ∑ v ∈ Finset.range (n + 1), f v = f 0 + ∑ v ∈ Finset.Icc 1 n, f v := by
  have h : Finset.range (n + 1) = insert 0 (Finset.Icc 1 n) := by
    ext v
    simp only [Finset.mem_range, Finset.mem_insert, Finset.mem_Icc]
    omega
  rw [h, Finset.sum_insert (by simp)]

theorem degree_zero (hO : Of G n S) : degree S n 0 = 0 := by
  classical
  unfold degree
  rw [Finset.card_eq_zero, Finset.filter_eq_empty_iff]
  intro v _ h
  have := (hO.rng _ _ h).1
  omega

/-- The searches need less memory than the edge array has entries. -/
theorem room_need (hO : Of G n S) (w : Str G) (s : Sizes n G) {Δ : Nat}
    (hd : ∀ v, degree S n v ≤ Δ)
    (hroom : (∑ v ∈ Finset.Icc 1 n, degree S n v / 64) + 2 * (Δ + 2) * (Δ / 64 + 1) + 1 <
      2 * edgeCount S n) : G.need < G.el.length := by
  have h0 := degree_zero hO
  have hN : ∀ v, v ≤ n → (G.V v).N = degree S n v + 1 := fun v hv => spec_degree hO w hv
  have e1 : G.el.length = n + 1 + 2 * edgeCount S n := by
    rw [s.len, Finset.sum_congr rfl (g := fun v => degree S n v + 1), sum_upto,
      Finset.sum_add_distrib, sum_degree, h0]
    · simp; omega
    · intro v hv
      rw [Finset.mem_range] at hv
      exact hN v (by omega)
  have e2 : G.ebSize = n + 1 + ∑ v ∈ Finset.Icc 1 n, degree S n v / 64 := by
    rw [s.ebs, Finset.sum_congr rfl (g := fun v => degree S n v / 64 + 1), sum_upto,
      Finset.sum_add_distrib, h0]
    · simp; omega
    · intro v hv
      rw [Finset.mem_range] at hv
      rw [hN v (by omega)]
      unfold dlen
      split <;> omega
  have e3 : G.maxDeg ≤ Δ + 1 := by
    obtain ⟨v, h1, h2⟩ := s.maxa
    have := hd v
    rw [h2, hN v h1]; omega
  have e4 : 2 * (G.limit + 1) * dlen G.maxDeg ≤ 2 * (Δ + 2) * (Δ / 64 + 1) := by
    apply Nat.mul_le_mul
    · have := s.lim; omega
    · unfold dlen
      split <;> omega
  unfold Graph.need
  omega

end CM
