import Verif.Lemmas.Shift
import Verif.Lemmas.AWApi
import Verif.Props.MemoryExact

/-!
# C82: loading shifts a word by its own width
-/

namespace CM

open Spec Sample Graph NWG

/-- The graph has a vertex with 63, 127, 191, ... neighbours. -/
def HasFullWord (S : SimpleGraph Nat) (n : Nat) : Prop :=
  ∃ v, 1 ≤ v ∧ v ≤ n ∧ (degree S n v + 1) % 64 = 0

theorem hasFullWord_iff {G : Graph} {n : Nat} {S : SimpleGraph Nat} (hO : Of G n S) (w : Str G) :
    (∃ V ∈ G.vs, V.N % 64 = 0) ↔ HasFullWord S n := by
  classical
  have hl : G.vs.length = n + 1 := by rw [w.vlen, hO.nv]
  have hV : ∀ v (h : v < G.vs.length), G.V v = G.vs[v] := by
    intro v h
    unfold Graph.V
    rw [List.getD_eq_getElem?_getD, List.getElem?_eq_getElem h]
    rfl
  constructor
  · rintro ⟨V, hm, hv⟩
    obtain ⟨v, h1, rfl⟩ := List.mem_iff_getElem.1 hm
    rw [← hV v h1, spec_degree hO w (by omega)] at hv
    refine ⟨v, ?_, by omega, hv⟩
    by_contra h0
    have : v = 0 := by omega
    subst this
    have hz : degree S n 0 = 0 := by
      unfold degree
      rw [Finset.card_eq_zero, Finset.filter_eq_empty_iff]
      intro x _ hx
      have := (hO.rng _ _ hx).1.1
      omega
    rw [hz] at hv
    omega
  · rintro ⟨v, h1, h2, h3⟩
    refine ⟨G.vs[v], List.getElem_mem _, ?_⟩
    · rw [← hV v (by omega), spec_degree hO w h2, h3]

/-- **C82** for `Graph.from_edgelist`, exactly: the undefined shift is executed if and only if a
vertex has 63, 127, ... neighbours; otherwise the object is the one the other theorems are about. -/
theorem C82_edgelist_partial (argLR : Bool) (cap : Nat) {rows : List (Nat × Nat)} {n : Nat}
    (hn : n < 2 ^ 31) (hlen : rows.length < 2 ^ 56)
    (hv : ∀ r ∈ rows, (1 ≤ r.1 ∧ r.1 ≤ n) ∧ 1 ≤ r.2 ∧ r.2 ≤ n) :
    (HasFullWord (ofPairs rows) n → PyGraph.fromEdgelistStrict argLR cap rows n = .error .ub) ∧
    (¬ HasFullWord (ofPairs rows) n → PyGraph.fromEdgelistStrict argLR cap rows n =
      PyGraph.fromEdgelist argLR cap rows n) := by
  obtain ⟨pg, G, h, hL⟩ := (fromEdgelist_spec argLR cap hn hlen).1 hv
  rw [← hasFullWord_iff hL.of hL.str, h]
  unfold PyGraph.fromEdgelist at h
  unfold PyGraph.fromEdgelistStrict
  obtain ⟨⟨edges, m⟩, h1, h2⟩ := bind_eq_ok.1 h
  rw [h1, ok_bind]
  simp only at h2 ⊢
  split at h2
  · cases h2
  · rename_i h0
    rw [if_neg h0]
    obtain ⟨a, b⟩ := loadGraphStrict_eq h2 (G := G) (by rw [hL.eq])
    exact ⟨b, fun hb => by rw [a hb, h2]⟩

/-- **C82** for `Graph.from_matrix`. -/
theorem C82_matrix_partial (argLR : Bool) (cap : Nat) {n : Nat} (hn : n < 2 ^ 28)
    (A : Nat → Nat → Bool) :
    (HasFullWord (ofMatrix n A) n → PyGraph.fromMatrixStrict argLR cap n n A = .error .ub) ∧
    (¬ HasFullWord (ofMatrix n A) n → PyGraph.fromMatrixStrict argLR cap n n A =
      PyGraph.fromMatrix argLR cap n n A) := by
  obtain ⟨pg, G, h, hL⟩ := fromMatrix_spec argLR cap (A := A) hn
  rw [← hasFullWord_iff hL.of hL.str, h]
  unfold PyGraph.fromMatrix at h
  unfold PyGraph.fromMatrixStrict
  rw [if_neg (by simp)] at h ⊢
  obtain ⟨⟨edges, m⟩, h1, h2⟩ := bind_eq_ok.1 h
  rw [h1, ok_bind]
  simp only at h2 ⊢
  split at h2
  · cases h2
  · rename_i h0
    rw [if_neg h0]
    obtain ⟨a, b⟩ := loadGraphStrict_eq h2 (G := G) (by rw [hL.eq])
    exact ⟨b, fun hb => by rw [a hb, h2]⟩

/-- **C82** for `Graph.from_adjlist`. -/
theorem C82_adjlist_partial (argLR : Bool) (cap : Nat) {n m : Nat} {sets : List (List Nat)}
    (hn : n < 2 ^ 31) (hs : sets.length < 2 ^ 64) (hlen : entries sets < 2 ^ 57)
    (hv : ValidSets sets n ∧ entries sets / 2 = m) :
    (HasFullWord (ofSets sets) n → PyGraph.fromAdjListStrict argLR cap n m sets = .error .ub) ∧
    (¬ HasFullWord (ofSets sets) n → PyGraph.fromAdjListStrict argLR cap n m sets =
      PyGraph.fromAdjList argLR cap n m sets) := by
  obtain ⟨pg, G, h, hL⟩ := (fromAdjList_spec argLR cap hn hs hlen).1 hv
  rw [← hasFullWord_iff hL.of hL.str, h]
  unfold PyGraph.fromAdjList at h
  unfold PyGraph.fromAdjListStrict
  split at h
  · cases h
  rename_i h3
  rw [if_neg h3]
  split at h
  · cases h
  rename_i h4
  rw [if_neg h4]
  obtain ⟨⟨edges, e⟩, h1, h2⟩ := bind_eq_ok.1 h
  rw [h1, ok_bind]
  simp only at h2 ⊢
  split at h2
  · cases h2
  · rename_i h0
    rw [if_neg h0]
    obtain ⟨a, b⟩ := loadGraphStrict_eq h2 (G := G) (by rw [hL.eq])
    exact ⟨b, fun hb => by rw [a hb, h2]⟩

section

variable {R : Type} [Zero R] [Add R] [Sub R] [NatCast R] [LT R] [LE R] [DecidableLT R]
  [DecidableLE R]

/-- **C82** for `NWGraph.from_edgelist`. -/
theorem C82_weighted_edgelist_partial (argLR : Bool) (cap : Nat) {rows : List (Nat × Nat)}
    {n : Nat} {wts : List R} (hn : n < 2 ^ 31) (hlen : rows.length < 2 ^ 56)
    (hv : ∀ r ∈ rows, (1 ≤ r.1 ∧ r.1 ≤ n) ∧ 1 ≤ r.2 ∧ r.2 ≤ n) (hw : wts.length = n) :
    (HasFullWord (ofPairs rows) n →
      PyNW.fromEdgelistStrict argLR cap rows n wts = .error .ub) ∧
    (¬ HasFullWord (ofPairs rows) n → PyNW.fromEdgelistStrict argLR cap rows n wts =
      PyNW.fromEdgelist argLR cap rows n wts) := by
  obtain ⟨pg, H, h, hL⟩ := (AW.wfromEdgelist_spec argLR cap hn hlen).1 ⟨hv, hw⟩
  rw [← hasFullWord_iff hL.of hL.str, h]
  unfold PyNW.fromEdgelist at h
  unfold PyNW.fromEdgelistStrict
  rw [if_neg (not_not.2 hw)] at h ⊢
  obtain ⟨⟨edges, m⟩, h1, h2⟩ := bind_eq_ok.1 h
  rw [h1, ok_bind]
  simp only at h2 ⊢
  split at h2
  · cases h2
  · rename_i h0
    rw [if_neg h0]
    obtain ⟨a, b⟩ := wloadGraphStrict_eq h2 (H := H) (by rw [hL.eq])
    exact ⟨b, fun hb => by rw [a hb, h2]⟩

/-- **C82** for `NWGraph.from_matrix`. -/
theorem C82_weighted_matrix_partial (argLR : Bool) (cap : Nat) {n : Nat} (hn : n < 2 ^ 28)
    (A : Nat → Nat → Bool) {wts : List R} (hw : wts.length = n) :
    (HasFullWord (ofMatrix n A) n → PyNW.fromMatrixStrict argLR cap n n A wts = .error .ub) ∧
    (¬ HasFullWord (ofMatrix n A) n → PyNW.fromMatrixStrict argLR cap n n A wts =
      PyNW.fromMatrix argLR cap n n A wts) := by
  obtain ⟨pg, H, h, hL⟩ := (AW.wfromMatrix_spec argLR cap (A := A) hn).1 hw
  rw [← hasFullWord_iff hL.of hL.str, h]
  unfold PyNW.fromMatrix at h
  unfold PyNW.fromMatrixStrict
  rw [if_neg (by simp), if_neg (not_not.2 hw)] at h ⊢
  obtain ⟨⟨edges, m⟩, h1, h2⟩ := bind_eq_ok.1 h
  rw [h1, ok_bind]
  simp only at h2 ⊢
  split at h2
  · cases h2
  · rename_i h0
    rw [if_neg h0]
    obtain ⟨a, b⟩ := wloadGraphStrict_eq h2 (H := H) (by rw [hL.eq])
    exact ⟨b, fun hb => by rw [a hb, h2]⟩

end

/-- A complete graph has such a vertex exactly if the number of its vertices is a multiple of
64. -/
theorem fullWord_complete {n : Nat} (hn : 0 < n) :
    HasFullWord (ofMatrix n fun _ _ => true) n ↔ n % 64 = 0 := by
  classical
  have hdeg : ∀ v, 1 ≤ v → v ≤ n → degree (ofMatrix n fun _ _ => true) n v = n - 1 := by
    intro v h1 h2
    unfold degree
    have : (Finset.Icc 1 n).filter (fun w => (ofMatrix n fun _ _ => true).Adj v w) =
        (Finset.Icc 1 n).erase v := by
      ext w
      simp only [Finset.mem_filter, Finset.mem_Icc, Finset.mem_erase, ofMatrix]
      constructor
      · rintro ⟨a, b, _⟩; exact ⟨fun h => b h.symm, a⟩
      · rintro ⟨a, b⟩; exact ⟨b, fun h => a h.symm, ⟨h1, h2⟩, b, by simp⟩
    rw [this, Finset.card_erase_of_mem (Finset.mem_Icc.2 ⟨h1, h2⟩), Nat.card_Icc]
    omega
  constructor
  · rintro ⟨v, h1, h2, h3⟩
    rw [hdeg v h1 h2] at h3
    omega
  · intro h
    exact ⟨1, le_refl _, hn, by rw [hdeg 1 (le_refl _) hn]; omega⟩

/-- **C82** is false: loading a complete graph with 64, 128, ... vertices is undefined. -/
theorem C82_refuted (argLR : Bool) (cap : Nat) {k : Nat} (hk : 1 ≤ k) (hk' : 64 * k < 2 ^ 28) :
    PyGraph.fromMatrixStrict argLR cap (64 * k) (64 * k) (fun _ _ => true) = .error .ub :=
  (C82_matrix_partial argLR cap hk' _).1 ((fullWord_complete (by omega)).2 (by omega))

/-- With 63 or 65 vertices it is not. -/
example (argLR : Bool) (cap : Nat) : ∃ pg pg', PyGraph.fromMatrixStrict argLR cap 63 63
      (fun _ _ => true) = .ok pg ∧
    PyGraph.fromMatrixStrict argLR cap 65 65 (fun _ _ => true) = .ok pg' := by
  obtain ⟨pg, G, h, _⟩ := fromMatrix_spec argLR cap (r := 63) (A := fun _ _ => true) (by decide)
  obtain ⟨pg', G', h', _⟩ := fromMatrix_spec argLR cap (r := 65) (A := fun _ _ => true) (by decide)
  refine ⟨pg, pg', ?_, ?_⟩
  · rw [(C82_matrix_partial argLR cap (by decide) _).2, h]
    rw [fullWord_complete (by decide)]
    decide
  · rw [(C82_matrix_partial argLR cap (by decide) _).2, h']
    rw [fullWord_complete (by decide)]
    decide

end CM
