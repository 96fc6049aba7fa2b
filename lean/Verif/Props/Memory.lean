import Mathlib.Algebra.BigOperators.Ring.Finset
import Verif.Lemmas.Room
import Verif.Lemmas.NWRat
import Verif.Lemmas.AWApi
import Verif.Props.Sample

/-!
# C22, C51: which graphs are safe to search

The theorems about searches ask that the constructor left the word buffer in place (`Usable`,
`WUsable`).  Here is a condition on the graph alone that guarantees it, whatever the allocator
does: there are enough edges compared with the largest degree.
-/

namespace CM

open Spec Graph NWG

variable {n : Nat} {S : SimpleGraph Nat}

/-- There are enough edges for the searches to fit into the memory of the edge array, where no
vertex has more than `Δ` neighbours. -/
def Roomy (S : SimpleGraph Nat) (n Δ : Nat) : Prop :=
  (∀ v, degree S n v ≤ Δ) ∧
    (∑ v ∈ Finset.Icc 1 n, degree S n v / 64) + 2 * (Δ + 2) * (Δ / 64 + 1) + 1 <
      2 * edgeCount S n

/-- With fewer than 64 neighbours at every vertex, `Δ + 3` edges are enough. -/
theorem roomy_small {Δ : Nat} (hd : ∀ v, degree S n v ≤ Δ) (h63 : Δ < 64)
    (hm : Δ + 2 < edgeCount S n) : Roomy S n Δ := by
  refine ⟨hd, ?_⟩
  have h1 : ∑ v ∈ Finset.Icc 1 n, degree S n v / 64 = 0 := by
    apply Finset.sum_eq_zero
    intro v _
    have := hd v
    omega
  have h2 : Δ / 64 = 0 := by omega
  rw [h1, h2]
  omega

/-- In general `(Δ + 2) * (Δ / 64 + 1)` edges and about a sixtieth more are enough. -/
theorem roomy_large {Δ : Nat} (hd : ∀ v, degree S n v ≤ Δ)
    (hm : 2 * (Δ + 2) * (Δ / 64 + 1) + 1 + edgeCount S n / 32 < 2 * edgeCount S n) :
    Roomy S n Δ := by
  refine ⟨hd, ?_⟩
  have h1 : 64 * ∑ v ∈ Finset.Icc 1 n, degree S n v / 64 ≤ 2 * edgeCount S n := by
    rw [← sum_degree, Finset.mul_sum]
    apply Finset.sum_le_sum
    intro v _
    omega
  omega

theorem Roomy.edge {Δ : Nat} (h : Roomy S n Δ) : ∃ u v, S.Adj u v := by
  classical
  by_contra hno
  have h1 : edgeCount S n = 0 := by
    unfold edgeCount
    rw [Finset.card_eq_zero, Finset.filter_eq_empty_iff]
    intro e _ he
    exact hno ⟨_, _, he.2⟩
  have := h.2
  omega

/-- **C22**: every graph with enough edges is usable: loading leaves its buffer in place, so
`C22_no_fault_partial` and all other theorems about usable graphs apply to it. -/
theorem C22_roomy_usable {pg : PyGraph} (h : Loaded pg n S) {Δ : Nat} (hr : Roomy S n Δ) :
    Usable pg n S := by
  obtain ⟨_, cap, m, G, hL⟩ := h.as
  refine ⟨h, ?_, hr.edge⟩
  intro G' hG
  rw [hL.eq] at hG
  cases hG
  exact (hL.dang hr.edge).2 (Or.inr (room_need hL.of hL.str hL.sizes hr.1 hr.2))

/-- **C51**: every weighted graph with enough edges is usable. -/
theorem C51_roomy_usable {R : Type} [Zero R] [Add R] [Sub R] [NatCast R] [LT R] [LE R]
    [DecidableLT R] [DecidableLE R] {pg : PyNW R} {ω : Nat → R} (h : WLoaded pg n S ω) {Δ : Nat}
    (hr : Roomy S n Δ) : WUsable pg n S ω := by
  obtain ⟨_, cap, m, H, hL⟩ := AW.wloaded_as h
  refine ⟨h, ?_, hr.edge⟩
  intro H' hH
  rw [hL.eq] at hH
  cases hH
  exact (hL.dang hr.edge).2 (Or.inr (room_need hL.of hL.str hL.sizes hr.1 hr.2))

/-- The complete graphs with 5 to 64 vertices are usable, however they are loaded. -/
theorem roomy_complete {n : Nat} (h5 : 5 ≤ n) (h64 : n ≤ 64)
    (hS : ∀ u v, S.Adj u v ↔ u ≠ v ∧ (1 ≤ u ∧ u ≤ n) ∧ (1 ≤ v ∧ v ≤ n)) :
    Roomy S n (n - 1) := by
  classical
  have hdeg : ∀ v, 1 ≤ v → v ≤ n → degree S n v = n - 1 := by
    intro v h1 h2
    unfold degree
    have : (Finset.Icc 1 n).filter (fun w => S.Adj v w) = (Finset.Icc 1 n).erase v := by
      ext w
      simp only [Finset.mem_filter, Finset.mem_Icc, Finset.mem_erase, hS]
      constructor
      · rintro ⟨a, b, _⟩; exact ⟨fun h => b h.symm, a⟩
      · rintro ⟨a, b⟩; exact ⟨b, fun h => a h.symm, ⟨h1, h2⟩, b⟩
    rw [this, Finset.card_erase_of_mem (Finset.mem_Icc.2 ⟨h1, h2⟩), Nat.card_Icc]
    omega
  have hle : ∀ v, degree S n v ≤ n - 1 := by
    intro v
    by_cases hv : 1 ≤ v ∧ v ≤ n
    · exact (hdeg v hv.1 hv.2).le
    · have : degree S n v = 0 := by
        unfold degree
        rw [Finset.card_eq_zero, Finset.filter_eq_empty_iff]
        intro w _ h
        exact hv ((hS _ _).1 h).2.1
      omega
  apply roomy_small hle (by omega)
  have h1 := sum_degree S n
  rw [Finset.sum_congr rfl (g := fun _ => n - 1)
    (fun v hv => hdeg v (Finset.mem_Icc.1 hv).1 (Finset.mem_Icc.1 hv).2), Finset.sum_const,
    Nat.card_Icc, smul_eq_mul] at h1
  have h2 : 5 * (n - 1) ≤ (n + 1 - 1) * (n - 1) := Nat.mul_le_mul_right _ (by omega)
  omega

/-- `Graph.from_matrix` of the full 5 × 5 matrix is usable for every allocator. -/
example {argLR : Bool} {cap : Nat} {pg : PyGraph}
    (h : PyGraph.fromMatrix argLR cap 5 5 (fun _ _ => true) = .ok pg) :
    Usable pg 5 (ofMatrix 5 fun _ _ => true) :=
  C22_roomy_usable (.matrix (by decide) h) (roomy_complete (n := 5) (by decide) (by decide)
    (by intro u v; simp [ofMatrix]))

end CM
