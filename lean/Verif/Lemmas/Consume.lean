import Verif.Lemmas.EnumBody

/-! # Iterating over all cliques (pyiterator.cpp, pyiterator.h) -/

namespace CM

open Spec

namespace Graph

/-- The vertices at a set of positions of the neighbour list of `r`, in list order. -/
def listAt (G : Graph) (r : Nat) (C : Finset Nat) : List Nat :=
  ((List.range (G.V r).N).filter (fun i => decide (i ∈ C))).map (G.e r)

theorem cliqueAt_listAt {Gs G : Graph} (F : Frame Gs G) (v : Nat) :
    G.cliqueAt v = Gs.listAt v (bset G.eb (Gs.vb v)) := by
  unfold cliqueAt listAt pick
  rw [F.vb]
  have he : (fun i => G.el.getD ((G.V v).elo + i) 0) = Gs.e v := by
    funext i
    rw [← F.e]; rfl
  rw [he]
  congr 1
  show List.filter _ (List.range (Gs.V v).N) = _
  apply List.filter_congr
  intro i hi
  rw [List.mem_range] at hi
  rw [eq_comm, Bool.eq_iff_iff, decide_eq_true_iff, mem_bset]
  exact ⟨fun h => h.2, fun h => ⟨hi, h⟩⟩

theorem EInv.pad {Gs G : Graph} {E : Enum} {Q : Nat → Prop} {b k : Nat}
    (h : EInv Q b Gs k G E) (hs : E.states ≠ []) :
    WF G ∧ ∀ v, v < G.nVert → PadZero G.eb (G.vb v) := by
  obtain ⟨_, hc, h⟩ := h
  rcases h with ⟨h1, _⟩ | ⟨h1, _⟩ | ⟨_, _, _, _, _, G0, p, ok, hc0, p1, p2, g, I, p3, p4⟩
  · exact absurd h1 hs
  · exact absurd h1 hs
  · have F := I.upd.frame
    refine ⟨F.wf g.wf, ?_⟩
    intro v hv
    rw [F.nVert] at hv
    have U := I.upd
    rw [p2] at U
    exact (U.mid ok g.hr v hv).1

theorem EInv.new {Q : Nat → Prop} {b : Nat} {Gs : Graph} (ok : OkAt b Gs) (h1 : 1 < Gs.nVert)
    (k : Nat) : EInv Q b Gs k Gs (Enum.new k) := by
  refine ⟨rfl, CoreAt.refl _ _ _, Or.inl ⟨rfl, h1, ?_⟩⟩
  exact pop_nothing_at ok

end Graph

open Graph

/-- `PyOk` for an object whose scratch space below `b` is in use. -/
structure PyAt (b : Nat) (pg : PyGraph) (n : Nat) (S : SimpleGraph Nat) (G : Graph) : Prop where
  g : pg.G = some G
  nv : pg.nvert = n
  pos : n ≠ 0
  ok : OkAt b G
  of : Of G n S

theorem PyOk.at {pg : PyGraph} {n : Nat} {S : SimpleGraph Nat} {G : Graph} (h : PyOk pg n S G) :
    PyAt G.searchStart pg n S G := ⟨h.g, h.nv, h.pos, h.ok.at, h.of⟩

theorem PyAt.loaded {b : Nat} {pg : PyGraph} {n : Nat} {S : SimpleGraph Nat} {G : Graph}
    (h : PyAt b pg n S G) : pg.checkLoaded = some G := by
  unfold PyGraph.checkLoaded
  rw [h.nv, if_neg h.pos, h.g]

/-- One `__next__` for sizes above one. -/
theorem nextClique_spec {pg : PyGraph} {Gs G : Graph} {E : Enum} {Q : Nat → Prop} {b k : Nat}
    (hQ : Q k) (h2 : 2 ≤ k) (hg : pg.G = some G) (hnv : Gs.nVert = pg.nvert + 1) (h : EInv Q b Gs k G E) :
    ∃ G' E', EInv Q b Gs k G' E' ∧
      ((∃ v C, pg.nextClique E = .ok ({ pg with G := some G' }, E', some (Gs.listAt v C)) ∧
          E'.states ≠ [] ∧ Pnd Gs k G E v C ∧
          ∀ r D, Pnd Gs k G' E' r D ↔ (Pnd Gs k G E r D ∧ ¬ (r = v ∧ D = C))) ∨
       (pg.nextClique E = .ok ({ pg with G := some G' }, E', none) ∧ OkAt b G' ∧
          E'.cur = Gs.nVert ∧ ∀ r C, ¬ Pnd Gs k G E r C)) := by
  obtain ⟨G', E', v, a1, a2, a3⟩ := enumGraph_spec hQ h2 h
  refine ⟨G', E', a2, ?_⟩
  unfold PyGraph.nextClique
  rw [hg]
  simp only
  rw [a1, ok_bind]
  simp only
  rcases a3 with ⟨b1, b2, b3, b4, b5⟩ | ⟨b1, b2, b3, b4⟩
  · left
    rw [if_neg (by omega)]
    obtain ⟨w, hp⟩ := a2.pad b3
    have F := a2.2.1.frame
    rw [getClique_ok w hp (by rw [F.nVert]; exact b1), ok_bind]
    refine ⟨v, _, ?_, b3, b4, b5⟩
    simp only
    rw [cliqueAt_listAt F]
  · right
    rw [if_pos (by omega)]
    exact ⟨rfl, b3, b2, b4⟩

/-- Iterating to the end for sizes above one: the pending cliques are reported, each once. -/
theorem consume_spec {Gs : Graph} {Q : Nat → Prop} {b k : Nat} (hQ : Q k) (h2 : 2 ≤ k) :
    ∀ (fuel : Nat) {pg : PyGraph} {G : Graph} {E : Enum} (P : Finset (Nat × Finset Nat)), pg.G = some G → Gs.nVert = pg.nvert + 1 →
    EInv Q b Gs k G E → (∀ r C, Pnd Gs k G E r C ↔ (r, C) ∈ P) → P.card < fuel →
    ∃ (G' : Graph) (E' : Enum) (ps : List (Nat × Finset Nat)),
      pg.consume fuel E = .ok ({ pg with G := some G' }, E', ps.map fun q => Gs.listAt q.1 q.2) ∧
      OkAt b G' ∧ CoreAt Q b Gs G' ∧ ps.Nodup ∧ (∀ q, q ∈ ps ↔ q ∈ P) ∧ E'.cur = Gs.nVert := by
  intro fuel
  induction fuel with
  | zero => intro pg G E P _ _ _ _ h; omega
  | succ f ih =>
    intro pg G E P hg hnv hI hP hf
    obtain ⟨G1, E1, a1, a2⟩ := nextClique_spec hQ h2 hg hnv hI
    unfold PyGraph.consume
    rcases a2 with ⟨v, C, b1, _, b2, b3⟩ | ⟨b1, b2, b4, b3⟩
    · rw [b1, ok_bind]
      simp only
      have hvC : (v, C) ∈ P := (hP v C).1 b2
      obtain ⟨G2, E2, ps, c1, c2, c3, c4, c5, c6⟩ := ih (pg := { pg with G := some G1 })
        (P := P.erase (v, C)) rfl hnv a1
        (by
          intro r D
          rw [b3, hP, Finset.mem_erase]
          constructor
          · rintro ⟨h1, h2⟩
            exact ⟨fun h => h2 ⟨congrArg Prod.fst h, congrArg Prod.snd h⟩, h1⟩
          · rintro ⟨h1, h2⟩
            exact ⟨h2, fun h => h1 (by rw [h.1, h.2])⟩)
        (by
          rw [Finset.card_erase_of_mem hvC]
          have := Finset.card_pos.2 ⟨_, hvC⟩
          omega)
      rw [c1, ok_bind]
      refine ⟨G2, E2, (v, C) :: ps, rfl, c2, c3, ?_, ?_, c6⟩
      · rw [List.nodup_cons]
        exact ⟨fun h => by simpa using (c5 _).1 h, c4⟩
      · intro q
        rw [List.mem_cons, c5, Finset.mem_erase]
        constructor
        · rintro (rfl | h)
          · exact hvC
          · exact h.2
        · intro h
          by_cases hq : q = (v, C)
          · exact Or.inl hq
          · exact Or.inr ⟨hq, h⟩
    · rw [b1, ok_bind]
      refine ⟨G1, E1, [], rfl, b2, a1.2.1, List.nodup_nil, ?_, b4⟩
      rintro ⟨r, C⟩
      rw [← hP]
      simp only [List.not_mem_nil, false_iff]
      exact b3 r C

/-- Everything that is pending for a new enumerator. -/
theorem new_pend {Gs : Graph} (k r : Nat) (C : Finset Nat) :
    Pnd Gs k Gs (Enum.new k) r C ↔
      (1 < r ∧ r < Gs.nVert ∧ k ≤ (Gs.V r).mcs ∧ Rooted Gs r C ∧ C.card = k) := by
  unfold Pnd Enum.new
  simp [PendC]

theorem pend_finite {Gs : Graph} (w : WF Gs) (k : Nat) :
    ∃ P : Finset (Nat × Finset Nat), (∀ r C, Pnd Gs k Gs (Enum.new k) r C ↔ (r, C) ∈ P) ∧
      P.card ≤ Gs.nVert * 2 ^ Gs.maxDeg := by
  classical
  refine ⟨((Finset.range Gs.nVert) ×ˢ (Finset.range Gs.maxDeg).powerset).filter
    (fun q => Pnd Gs k Gs (Enum.new k) q.1 q.2), ?_, ?_⟩
  · intro r C
    rw [Finset.mem_filter, Finset.mem_product, Finset.mem_range, Finset.mem_powerset]
    constructor
    · intro h
      refine ⟨⟨?_, ?_⟩, h⟩
      · exact ((new_pend k r C).1 h).2.1
      · have h' := (new_pend k r C).1 h
        intro i hi
        rw [Finset.mem_range]
        exact Nat.lt_of_lt_of_le (h'.2.2.2.1.1.2.1 i hi) (w.maxd r h'.2.1)
    · intro h; exact h.2
  · refine Nat.le_trans (Finset.card_filter_le _ _) ?_
    rw [Finset.card_product, Finset.card_powerset, Finset.card_range, Finset.card_range]

/-- `list(all_cliques(k))` for `k ≥ 2` on an object whose invariant holds. -/
theorem allCliques_run {pg : PyGraph} {n : Nat} {S : SimpleGraph Nat} {G : Graph}
    {b : Nat} (h : PyAt b pg n S G) {Q : Nat → Prop} {k : Nat} (hQ : Q k) (h2 : 2 ≤ k) {fuel : Nat}
    (hf : G.nVert * 2 ^ G.maxDeg < fuel) :
    ∃ (G' : Graph) (E' : Enum) (ps : List (Nat × Finset Nat)),
      pg.consume fuel (Enum.new k) =
        .ok ({ pg with G := some G' }, E', ps.map fun q => G.listAt q.1 q.2) ∧
      OkAt b G' ∧ CoreAt Q b G G' ∧ ps.Nodup ∧ E'.cur = G.nVert ∧
      ∀ r C, (r, C) ∈ ps ↔
        (1 < r ∧ r < G.nVert ∧ k ≤ (G.V r).mcs ∧ Rooted G r C ∧ C.card = k) := by
  obtain ⟨P, h3, h4⟩ := pend_finite h.ok.wf k
  have hnv := h.of.nv
  have hpos := h.pos
  obtain ⟨G', E', ps, a1, a2, a3, a4, a5, a6⟩ := consume_spec (pg := pg) hQ h2 fuel P h.g
    (by rw [hnv, h.nv]) (EInv.new h.ok (by omega) k) h3 (by omega)
  refine ⟨G', E', ps, a1, a2, a3, a4, a6, ?_⟩
  intro r C
  rw [a5, ← h3, new_pend]

/-! ## Lists of positions and lists of vertices -/

theorem mem_listAt {G : Graph} {r u : Nat} {C : Finset Nat} :
    u ∈ G.listAt r C ↔ ∃ i ∈ C, i < (G.V r).N ∧ G.e r i = u := by
  unfold listAt
  simp only [List.mem_map, List.mem_filter, List.mem_range, decide_eq_true_iff]
  constructor
  · rintro ⟨i, ⟨h1, h2⟩, h3⟩; exact ⟨i, h2, h1, h3⟩
  · rintro ⟨i, h1, h2, h3⟩; exact ⟨i, ⟨h2, h1⟩, h3⟩

theorem listAt_sorted {G : Graph} (w : Str G) {r : Nat} (hr : r < G.nVert) (C : Finset Nat) :
    (G.listAt r C).Pairwise (· < ·) := by
  unfold listAt
  rw [List.pairwise_map]
  have h1 : ((List.range (G.V r).N).filter fun i => decide (i ∈ C)).Pairwise (· < ·) :=
    List.Pairwise.sublist List.filter_sublist List.pairwise_lt_range
  refine h1.imp_of_mem ?_
  intro a b ha hb hab
  have hb' := (List.mem_filter.1 hb).1
  rw [List.mem_range] at hb'
  exact w.sorted r hr a b hab hb'

theorem listAt_length {G : Graph} {r : Nat} {C : Finset Nat} (h : ∀ i ∈ C, i < (G.V r).N) :
    (G.listAt r C).length = C.card := by
  unfold listAt
  rw [List.length_map, ← List.toFinset_card_of_nodup
    (List.Nodup.sublist List.filter_sublist List.nodup_range)]
  congr 1
  ext i
  simp only [List.mem_toFinset, List.mem_filter, List.mem_range, decide_eq_true_iff]
  exact ⟨fun h => h.2, fun h' => ⟨h i h', h'⟩⟩

/-- A rooted set of positions describes a clique of the specified graph. -/
theorem listAt_clique {n : Nat} {S : SimpleGraph Nat} {G : Graph} (hO : Of G n S) (w : Str G)
    {r : Nat} (hr : r < G.nVert) (h0 : r ≠ 0) {C : Finset Nat} (hc : IsCl G r C) :
    IsCliqueList S n (G.listAt r C) := by
  have hnv := hO.nv
  have hlt : ∀ u ∈ G.listAt r C, u < G.nVert ∧ u ≠ 0 := by
    intro u hu
    obtain ⟨i, hi, hN, rfl⟩ := mem_listAt.1 hu
    refine ⟨w.e_lt hr hN, ?_⟩
    intro he
    have h1 := hc.2.2 i hi _ hc.1
    rw [he, w.self r hr] at h1
    exact h0 (hO.zero h1)
  refine ⟨listAt_sorted w hr C, ?_, ?_⟩
  · intro u hu
    have := hlt u hu
    omega
  · intro u hu x hx hne
    have hu' := (hlt u hu).1
    obtain ⟨i, hi, _, rfl⟩ := mem_listAt.1 hu
    obtain ⟨j, hj, _, rfl⟩ := mem_listAt.1 hx
    rcases (hO.adj _ _ (by omega)).1 (hc.2.2 i hi j hj) with h1 | h1
    · exact absurd h1.symm hne
    · exact h1

/-- The root of a rooted set is the first of its vertices in the order (list length, id). -/
theorem rooted_first {G : Graph} (w : Str G) {r : Nat} (hr : r < G.nVert) {C : Finset Nat}
    (h : Rooted G r C) : ∀ u ∈ G.listAt r C, u ≠ r →
      (G.V r).N < (G.V u).N ∨ ((G.V r).N = (G.V u).N ∧ r < u) := by
  intro u hu hne
  obtain ⟨i, hi, hN, rfl⟩ := mem_listAt.1 hu
  have hsp := w.spos r hr
  have hs := w.self r hr
  have hi2 : i ≠ (G.V r).spos := by rintro rfl; exact hne hs
  have := (mem_rootCand.1 (h.2 i hi hi2)).2
  rcases this with ⟨h1, h2⟩ | ⟨h1, h2⟩
  · exact Or.inl h2
  · have := w.sorted r hr _ i h1 hN
    rw [hs] at this
    rcases Nat.lt_or_ge (G.V r).N (G.V (G.e r i)).N with h3 | h3
    · exact Or.inl h3
    · exact Or.inr ⟨by omega, this⟩

theorem root_mem {G : Graph} (w : Str G) {r : Nat} (hr : r < G.nVert) {C : Finset Nat}
    (h : IsCl G r C) : r ∈ G.listAt r C :=
  mem_listAt.2 ⟨_, h.1, w.spos r hr, w.self r hr⟩

/-- Different rooted sets describe different lists. -/
theorem listAt_inj {G : Graph} (w : Str G) {r r' : Nat} (hr : r < G.nVert) (hr' : r' < G.nVert)
    {C C' : Finset Nat} (h : Rooted G r C) (h' : Rooted G r' C')
    (he : G.listAt r C = G.listAt r' C') : r = r' ∧ C = C' := by
  have hrr : r = r' := by
    by_contra hne
    have h1 := rooted_first w hr h r' (by rw [he]; exact root_mem w hr' h'.1) (fun e => hne e.symm)
    have h2 := rooted_first w hr' h' r (by rw [← he]; exact root_mem w hr h.1) hne
    omega
  subst hrr
  refine ⟨rfl, ?_⟩
  have key : ∀ {C C' : Finset Nat}, Rooted G r C → Rooted G r C' → G.listAt r C = G.listAt r C' →
      C ⊆ C' := by
    intro C C' h h' he i hi
    have hN := h.1.2.1 i hi
    have : G.e r i ∈ G.listAt r C := mem_listAt.2 ⟨i, hi, hN, rfl⟩
    rw [he] at this
    obtain ⟨j, hj, hjN, hje⟩ := mem_listAt.1 this
    have : i = j := by
      rcases Nat.lt_trichotomy i j with h1 | h1 | h1
      · have := w.sorted r hr i j h1 hjN; omega
      · exact h1
      · have := w.sorted r hr j i h1 hN; omega
    rw [this]; exact hj
  exact Finset.Subset.antisymm (key h h' he) (key h' h he.symm)

/-- Two increasing lists with the same members are equal. -/
theorem sorted_ext {l l' : List Nat} (h : l.Pairwise (· < ·)) (h' : l'.Pairwise (· < ·))
    (hm : ∀ x, x ∈ l ↔ x ∈ l') : l = l' := by
  refine List.Perm.eq_of_pairwise (le := fun a b => a < b) ?_ h h' ?_
  · intro a b _ _ h1 h2; omega
  · rw [List.perm_ext_iff_of_nodup (h.imp (fun h => Nat.ne_of_lt h))
      (h'.imp (fun h => Nat.ne_of_lt h))]
    exact hm

end CM
