import Verif.Lemmas.Ctor2
import Verif.Spec

/-! # From positions in neighbour lists to cliques of the specified graph -/

namespace CM

open Spec

namespace Graph

variable {G : Graph}

/-- The clique stored at vertex `v`. -/
def cliqueAt (G : Graph) (v : Nat) : List Nat := pick G.el (G.V v).elo G.eb (G.vb v)

theorem getClique_ok (w : WF G) (hp : ∀ v, v < G.nVert → PadZero G.eb (G.vb v)) {v : Nat}
    (hv : v < G.nVert) : G.getClique v = .ok (G, G.cliqueAt v) := by
  unfold getClique
  rw [vtx_ok w hv, ok_bind, vbits_ok w, ok_bind]
  have hebo := w.eboEnd v hv
  have hst := w.start
  obtain ⟨L, _, har⟩ := w.arena
  obtain ⟨m', h1, h2, h3⟩ := (G.vb v).getSubset_spec G.el (G.V v).elo G.eb (N_pos w hv)
    (by simp only [vb]; omega) (w.inEl v hv)
  rw [h1, ok_bind]
  have : m' = G.eb := by
    apply mem_ext h2
    intro a
    rw [h3]
    split
    · rename_i hc
      have hpv := hp v hv (a - 64 * (G.vb v).off) (by omega) (by omega)
      have e : 64 * (G.vb v).off + (a - 64 * (G.vb v).off) = a := by omega
      rw [e] at hpv; exact hpv.symm
    · rfl
  subst this
  rfl

theorem cliqueAt_length (v : Nat) : (G.cliqueAt v).length = (bset G.eb (G.vb v)).card :=
  pick_length _ _ _ _

theorem mem_cliqueAt {v u : Nat} :
    u ∈ G.cliqueAt v ↔ ∃ i ∈ bset G.eb (G.vb v), G.e v i = u := by
  unfold cliqueAt pick
  simp only [List.mem_map, List.mem_filter, List.mem_range, mem_bset]
  rfl

theorem cliqueAt_sorted (w : Str G) {v : Nat} (hv : v < G.nVert) :
    (G.cliqueAt v).Pairwise (· < ·) := by
  unfold cliqueAt pick
  rw [List.pairwise_map]
  have h1 : ((List.range (G.vb v).len).filter fun i =>
      bitAt G.eb (64 * (G.vb v).off + i)).Pairwise (· < ·) :=
    List.Pairwise.sublist List.filter_sublist List.pairwise_lt_range
  refine h1.imp_of_mem ?_
  intro a b ha hb hab
  have hb' := (List.mem_filter.1 hb).1
  rw [List.mem_range] at hb'
  exact w.sorted v hv a b hab hb'

/-- The object stores the graph `S` on the vertices `1 .. n`. -/
structure Of (G : Graph) (n : Nat) (S : SimpleGraph Nat) : Prop where
  nv : G.nVert = n + 1
  adj : ∀ u w, u ≤ n → (G.nadj u w ↔ w = u ∨ S.Adj u w)
  rng : ∀ u w, S.Adj u w → (1 ≤ u ∧ u ≤ n) ∧ (1 ≤ w ∧ w ≤ n)

theorem Of.frame {G' : Graph} {n : Nat} {S : SimpleGraph Nat} (h : Of G n S) (F : Frame G G') :
    Of G' n S :=
  ⟨by rw [F.nVert]; exact h.nv, fun u w hu => by rw [F.nadj]; exact h.adj u w hu, h.rng⟩

theorem Of.zero {n : Nat} {S : SimpleGraph Nat} (h : Of G n S) {w : Nat} (hw : G.nadj 0 w) :
    w = 0 := by
  rcases (h.adj 0 w (Nat.zero_le _)).1 hw with h1 | h1
  · exact h1
  · have := (h.rng _ _ h1).1.1; omega

/-- A stored clique is a clique of the specified graph. -/
theorem cliqueAt_clique {n : Nat} {S : SimpleGraph Nat} (hO : Of G n S) (w : Str G) {v : Nat}
    (hv : v < G.nVert) (hc : IsCl G v (bset G.eb (G.vb v))) (h0 : v ≠ 0) :
    IsCliqueList S n (G.cliqueAt v) := by
  have hnv := hO.nv
  have hlt : ∀ u ∈ G.cliqueAt v, u < G.nVert ∧ u ≠ 0 := by
    intro u hu
    obtain ⟨i, hi, rfl⟩ := mem_cliqueAt.1 hu
    have hlt := w.e_lt hv (hc.2.1 i hi)
    refine ⟨hlt, ?_⟩
    intro he
    have h1 := hc.2.2 i hi _ hc.1
    rw [he, w.self v hv] at h1
    exact h0 (hO.zero h1)
  refine ⟨cliqueAt_sorted w hv, ?_, ?_⟩
  · intro u hu
    have := hlt u hu
    omega
  · intro u hu x hx hne
    have hu' := (hlt u hu).1
    obtain ⟨i, hi, rfl⟩ := mem_cliqueAt.1 hu
    obtain ⟨j, hj, rfl⟩ := mem_cliqueAt.1 hx
    rcases (hO.adj _ _ (by omega)).1 (hc.2.2 i hi j hj) with h1 | h1
    · exact absurd h1.symm hne
    · exact h1

/-- The first vertex of a nonempty set in the order (degree, id). -/
theorem exists_root (G : Graph) {C : Finset Nat} (hC : C.Nonempty) :
    ∃ r ∈ C, ∀ u ∈ C, u ≠ r → (u < r ∧ (G.V r).N < (G.V u).N) ∨ (r < u ∧ (G.V r).N ≤ (G.V u).N) := by
  obtain ⟨r0, h0, hmin⟩ := Finset.exists_min_image C (fun u => (G.V u).N) hC
  obtain ⟨r, hr, hrm⟩ := Finset.exists_min_image (C.filter fun u => (G.V u).N = (G.V r0).N) id
    ⟨r0, Finset.mem_filter.2 ⟨h0, rfl⟩⟩
  rw [Finset.mem_filter] at hr
  refine ⟨r, hr.1, ?_⟩
  intro u hu hne
  have h1 := hmin u hu
  by_cases he : (G.V u).N = (G.V r0).N
  · have := hrm u (Finset.mem_filter.2 ⟨hu, he⟩)
    simp only [id] at this
    right; omega
  · rcases Nat.lt_or_gt_of_ne hne with h | h
    · left; omega
    · right; omega

/-- Every clique is searched from exactly one root: from its first vertex. -/
theorem clique_rooted (w : Str G) {C : Finset Nat} (hC : C.Nonempty)
    (hlt : ∀ u ∈ C, u < G.nVert) (hadj : ∀ u ∈ C, ∀ v ∈ C, G.nadj u v) :
    ∃ r ∈ C, ∃ S, Rooted G r S ∧ S.card = C.card ∧ S.image (G.e r) = C := by
  obtain ⟨r, hr, hmin⟩ := exists_root G hC
  have hrn := hlt r hr
  let S := (Finset.range (G.V r).N).filter fun i => G.e r i ∈ C
  have hinj : ∀ i ∈ S, ∀ j ∈ S, G.e r i = G.e r j → i = j := by
    intro i hi j hj he
    have hi' := Finset.mem_range.1 (Finset.mem_filter.1 hi).1
    have hj' := Finset.mem_range.1 (Finset.mem_filter.1 hj).1
    rcases Nat.lt_trichotomy i j with h1 | h1 | h1
    · have := w.sorted r hrn i j h1 hj'; omega
    · exact h1
    · have := w.sorted r hrn j i h1 hi'; omega
  have himg : S.image (G.e r) = C := by
    ext u
    rw [Finset.mem_image]
    constructor
    · rintro ⟨i, hi, rfl⟩; exact (Finset.mem_filter.1 hi).2
    · intro hu
      obtain ⟨i, hi, he⟩ := hadj r hr u hu
      exact ⟨i, Finset.mem_filter.2 ⟨Finset.mem_range.2 hi, by rw [he]; exact hu⟩, he⟩
  have hcard : S.card = C.card := by
    rw [← himg, Finset.card_image_of_injOn]
    intro i hi j hj he
    exact hinj i hi j hj he
  refine ⟨r, hr, S, ⟨⟨?_, ?_, ?_⟩, ?_⟩, hcard, himg⟩
  · exact Finset.mem_filter.2 ⟨Finset.mem_range.2 (w.spos r hrn), by rw [w.self r hrn]; exact hr⟩
  · intro i hi; exact Finset.mem_range.1 (Finset.mem_filter.1 hi).1
  · intro i hi j hj
    exact hadj _ (Finset.mem_filter.1 hi).2 _ (Finset.mem_filter.1 hj).2
  · intro i hi hne
    have hi' := Finset.mem_range.1 (Finset.mem_filter.1 hi).1
    have hC' := (Finset.mem_filter.1 hi).2
    rw [mem_rootCand]
    refine ⟨hi', ?_⟩
    rcases Nat.lt_or_gt_of_ne hne with h | h
    · left
      have hlt' := w.sorted r hrn i _ h (w.spos r hrn)
      rw [w.self r hrn] at hlt'
      rcases hmin _ hC' (by omega) with h1 | h1
      · exact ⟨h, h1.2⟩
      · omega
    · right
      have hlt' := w.sorted r hrn _ i h hi'
      rw [w.self r hrn] at hlt'
      rcases hmin _ hC' (by omega) with h1 | h1
      · omega
      · exact ⟨h, h1.2⟩

/-- A clique of the specified graph, as a rooted set of positions. -/
theorem spec_rooted {n : Nat} {S : SimpleGraph Nat} (hO : Of G n S) (w : Str G) {l : List Nat}
    (hl : IsCliqueList S n l) (hne : l ≠ []) :
    ∃ r T, r ∈ l ∧ r < G.nVert ∧ Rooted G r T ∧ T.card = l.length ∧
      T.image (G.e r) = l.toFinset := by
  have hnd : l.Nodup := hl.increasing.imp (fun h => Nat.ne_of_lt h)
  have hnv := hO.nv
  obtain ⟨r, hr, T, h1, h2, h3⟩ := clique_rooted (G := G) w (C := l.toFinset)
    (by
      obtain ⟨x, xs, rfl⟩ := List.exists_cons_of_ne_nil hne
      exact ⟨x, by simp⟩)
    (by
      intro u hu
      have := hl.range u (List.mem_toFinset.1 hu)
      omega)
    (by
      intro u hu v hv
      rw [List.mem_toFinset] at hu hv
      have := hl.range u hu
      rw [hO.adj u v (by omega)]
      by_cases huv : u = v
      · exact Or.inl huv.symm
      · exact Or.inr (hl.clique hu hv huv))
  rw [List.mem_toFinset] at hr
  exact ⟨r, T, hr, by have := hl.range r hr; omega, h1, by
    rw [h2, List.toFinset_card_of_nodup hnd], h3⟩

theorem rooted_card_le (w : Str G) {r : Nat} {T : Finset Nat} (hr : r < G.nVert)
    (h : Rooted G r T) : T.card ≤ (G.rootCand r).card + 1 := by
  have hsub : T ⊆ insert (G.V r).spos (G.rootCand r) := by
    intro i hi
    rw [Finset.mem_insert]
    by_cases he : i = (G.V r).spos
    · exact Or.inl he
    · exact Or.inr (h.2 i hi he)
  exact Nat.le_trans (Finset.card_le_card hsub) (Finset.card_insert_le _ _)

/-- A freshly built object's bounds are valid. -/
theorem Bounds.mcsOk (w : Str G) (B : Bounds G) : McsOk G := by
  intro v hv S hS _
  left
  rw [B.mcs v hv]; exact rooted_card_le w hv hS

end Graph

end CM
