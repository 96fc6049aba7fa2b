import Verif.Lemmas.Room
import Verif.Lemmas.History
import Verif.Lemmas.Cut
import Verif.SpecMemory

/-! # The memory the constructor asks for, computed from the graph -/

namespace CM

open Spec Graph

variable {n : Nat} {S : SimpleGraph Nat} {G : Graph}

/-- The candidates at a root are the neighbours after it in the order of the degrees. -/
theorem rootCand_later (hO : Of G n S) (w : Str G) {r : Nat} (hr : r ≤ n) :
    (G.rootCand r).card = later S n r := by
  classical
  have hnv := hO.nv
  have hrv : r < G.nVert := by omega
  have hinj : ∀ i j, i < (G.V r).N → j < (G.V r).N → (G.e r i < G.e r j ↔ i < j) := by
    intro i j hi hj
    constructor
    · intro h
      rcases Nat.lt_trichotomy i j with h1 | h1 | h1
      · exact h1
      · subst h1; omega
      · have := w.sorted r hrv j i h1 hi; omega
    · intro h; exact w.sorted r hrv i j h hj
  have hs := w.spos r hrv
  have hself := w.self r hrv
  have himg : (G.rootCand r).image (G.e r) = (Finset.Icc 1 n).filter fun v => S.Adj r v ∧
      (degree S n r < degree S n v ∨ degree S n r = degree S n v ∧ r < v) := by
    ext x
    simp only [Finset.mem_image, mem_rootCand, Finset.mem_filter, Finset.mem_Icc]
    constructor
    · rintro ⟨i, ⟨hi, hc⟩, rfl⟩
      have hne : G.e r i ≠ r := by
        intro h
        have h1 := hinj i _ hi hs
        have h2 := hinj _ i hs hi
        rw [hself] at h1 h2
        omega
      rcases (hO.adj r _ hr).1 ⟨i, hi, rfl⟩ with h | h
      · exact absurd h hne
      · have hx := (hO.rng _ _ h).2
        refine ⟨hx, h, ?_⟩
        rw [spec_degree hO w hr, spec_degree hO w hx.2] at hc
        have h2 := hinj _ i hs hi
        rw [hself] at h2
        omega
    · rintro ⟨hx, h, hc⟩
      obtain ⟨i, hi, rfl⟩ := (hO.adj r x hr).2 (Or.inr h)
      refine ⟨i, ⟨hi, ?_⟩, rfl⟩
      rw [spec_degree hO w hr, spec_degree hO w hx.2]
      have h1 := hinj i _ hi hs
      have h2 := hinj _ i hs hi
      rw [hself] at h1 h2
      have hne : r ≠ G.e r i := h.ne
      omega
  have hcard := congrArg Finset.card himg
  rw [Finset.card_image_of_injOn] at hcard
  · rw [hcard]; unfold later; congr!
  · intro i hi j hj he
    have hi' := (mem_rootCand.1 (Finset.mem_coe.1 hi)).1
    have hj' := (mem_rootCand.1 (Finset.mem_coe.1 hj)).1
    have h1 := hinj i j hi' hj'
    have h2 := hinj j i hj' hi'
    omega

theorem later_zero (hO : Of G n S) : later S n 0 = 0 := by
  classical
  unfold later
  rw [Finset.card_eq_zero, Finset.filter_eq_empty_iff]
  intro v _ h
  have := (hO.rng _ _ h.1).1
  omega

theorem limit_eq (hO : Of G n S) (w : Str G) (B : Bounds G) :
    G.limit = (Finset.Icc 1 n).sup (later S n) + 1 := by
  have hnv := hO.nv
  have h0 := later_zero hO
  apply Nat.le_antisymm
  · rw [B.eq, rootCand_later hO w (by have := B.loc; omega)]
    rcases Nat.eq_zero_or_pos G.curLoc with h | h
    · rw [h, h0]; omega
    · have := Finset.le_sup (f := later S n) (show G.curLoc ∈ Finset.Icc 1 n from
        Finset.mem_Icc.2 ⟨h, by have := B.loc; omega⟩)
      omega
  · apply Nat.succ_le_of_lt
    refine (Finset.sup_lt_iff (by
      have := B.le 0 (by omega); simp; omega)).2 ?_
    intro v hv
    rw [Finset.mem_Icc] at hv
    have := B.le v (by omega)
    rw [rootCand_later hO w hv.2] at this
    omega

theorem maxDeg_eq (hO : Of G n S) (w : Str G) (s : Sizes n G)
    (hm : ∀ v, v < G.nVert → (G.V v).N ≤ G.maxDeg) :
    G.maxDeg = (Finset.Icc 1 n).sup (degree S n) + 1 := by
  have hnv := hO.nv
  have h0 := degree_zero hO
  apply Nat.le_antisymm
  · obtain ⟨v, h1, h2⟩ := s.maxa
    rw [h2, spec_degree hO w h1]
    rcases Nat.eq_zero_or_pos v with h | h
    · rw [h, h0]; omega
    · have := Finset.le_sup (f := degree S n) (show v ∈ Finset.Icc 1 n from
        Finset.mem_Icc.2 ⟨h, h1⟩)
      omega
  · apply Nat.succ_le_of_lt
    refine (Finset.sup_lt_iff (by
      have h1 := hm 0 (by omega)
      have h2 := w.spos 0 (by omega)
      simp; omega)).2 ?_
    intro v hv
    rw [Finset.mem_Icc] at hv
    have := hm v (by omega)
    rw [spec_degree hO w hv.2] at this
    omega

theorem need_eq (hO : Of G n S) (w : Str G) (s : Sizes n G) (B : Bounds G)
    (hm : ∀ v, v < G.nVert → (G.V v).N ≤ G.maxDeg) : G.need = wordsNeeded S n := by
  have h0 := degree_zero hO
  have hN : ∀ v, v ≤ n → (G.V v).N = degree S n v + 1 := fun v hv => spec_degree hO w hv
  have e2 : G.ebSize = n + 1 + ∑ v ∈ Finset.Icc 1 n, degree S n v / 64 := by
    rw [s.ebs, Finset.sum_congr rfl (g := fun v => degree S n v / 64 + 1), sum_upto,
      Finset.sum_add_distrib, h0]
    · simp; omega
    · intro v hv
      rw [Finset.mem_range] at hv
      rw [hN v (by omega)]
      unfold dlen
      split <;> omega
  have e3 : dlen G.maxDeg = (Finset.Icc 1 n).sup (degree S n) / 64 + 1 := by
    rw [maxDeg_eq hO w s hm]
    unfold dlen
    split <;> omega
  unfold Graph.need wordsNeeded
  rw [limit_eq hO w B, e2, e3]

theorem el_eq (hO : Of G n S) (w : Str G) (s : Sizes n G) :
    G.el.length = wordsStored S n := by
  have h0 := degree_zero hO
  unfold wordsStored
  rw [s.len, Finset.sum_congr rfl (g := fun v => degree S n v + 1), sum_upto,
    Finset.sum_add_distrib, sum_degree, h0]
  · simp; omega
  · intro v hv
    rw [Finset.mem_range] at hv
    exact spec_degree hO w (by omega)

/-- The buffer of a loaded graph is in place exactly if the searches fit. -/
theorem LoadedAs.kept_iff {cap m : Nat} {pg : PyGraph} (h : LoadedAs cap n m S pg G)
    (he : ∃ u v, S.Adj u v) :
    BufferKept pg ↔ wordsNeeded S n ≤ cap ∨ wordsNeeded S n < wordsStored S n := by
  rw [← need_eq h.of h.str h.sizes h.bounds h.maxd, ← el_eq h.of h.str h.sizes, ← h.dang he]
  unfold BufferKept
  rw [h.eq]
  constructor
  · intro h'; exact h' G rfl
  · intro h' G' hG; cases hG; exact h'

/-! ## The same load with more room -/

/-- The object with a given answer to "was the buffer moved". -/
def PyGraph.flag (d : Bool) (pg : PyGraph) : PyGraph :=
  { pg with G := pg.G.map fun G => { G with dangling := d } }

theorem ctor_flag {argLR : Bool} {cap cap' n : Nat} {edges : Edges}
    (h : Graph.ctor argLR cap n edges = .ok G) :
    ∃ d, Graph.ctor argLR cap' n edges = .ok { G with dangling := d } := by
  unfold Graph.ctor at h ⊢
  obtain ⟨E, h1, h⟩ := bind_eq_ok.1 h
  rw [h1, ok_bind]
  obtain ⟨G1, h2, h⟩ := bind_eq_ok.1 h
  simp only at h2 ⊢
  rw [h2, ok_bind]
  unfold setBounds at h ⊢
  obtain ⟨G2, h3, h⟩ := bind_eq_ok.1 h
  rw [h3, ok_bind]
  simp only at h ⊢
  split at h
  · rename_i hc
    rw [if_pos hc]
    cases h
    exact ⟨_, rfl⟩
  · rename_i hc
    rw [if_neg hc]
    cases h
    exact ⟨_, rfl⟩

theorem loadGraph_flag {argLR : Bool} {cap cap' n m : Nat} {edges : Edges} {pg0 pg : PyGraph}
    (h : PyGraph.loadGraph argLR cap pg0 n m edges = .ok pg) :
    ∃ d, PyGraph.loadGraph argLR cap' pg0 n m edges = .ok (pg.flag d) := by
  unfold PyGraph.loadGraph at h ⊢
  obtain ⟨G, h1, h⟩ := bind_eq_ok.1 h
  obtain ⟨d, h2⟩ := ctor_flag (cap' := cap') h1
  rw [h2, ok_bind]
  cases h
  exact ⟨d, rfl⟩

/-- A load whose buffer was moved is the same load with more room, apart from that. -/
theorem Loaded.moved {pg : PyGraph} (h : Loaded pg n S) (he : ∃ u v, S.Adj u v)
    (hk : ¬ BufferKept pg) :
    ∃ pg0 G, Loaded pg0 n S ∧ BufferKept pg0 ∧ pg0.G = some G ∧
      pg = { pg0 with G := some G.mv } := by
  have main : ∀ {cap m : Nat} {G : Graph}, LoadedAs cap n m S pg G → ∀ d : Bool,
      Loaded (pg.flag d) n S → BufferKept (pg.flag d) →
      ∃ pg0 G, Loaded pg0 n S ∧ BufferKept pg0 ∧ pg0.G = some G ∧
        pg = { pg0 with G := some G.mv } := by
    intro cap m G hL d hl hb
    refine ⟨pg.flag d, { G with dangling := d }, hl, hb, by rw [hL.eq]; rfl, ?_⟩
    have : G.dangling = true := by
      by_contra hd
      apply hk
      intro G' hG
      rw [hL.eq] at hG
      cases hG
      simpa using hd
    rw [hL.eq]
    unfold PyGraph.flag Graph.mv
    simp only [Option.map_some]
    rw [← this]
  cases h with
  | @edgelist argLR cap rows n pg hn hl h =>
    obtain ⟨h1, h2⟩ := fromEdgelist_spec argLR cap (rows := rows) hn hl
    obtain ⟨h1', h2'⟩ := fromEdgelist_spec argLR (wordsNeeded (ofPairs rows) n) (rows := rows) hn hl
    by_cases hv : ValidRows rows n
    · obtain ⟨pg1, G, h3, h4⟩ := h1 hv
      rw [h] at h3
      cases h3
      obtain ⟨pg', G', h3', h4'⟩ := h1' hv
      have hf : ∃ d, pg' = pg.flag d := by
        unfold PyGraph.fromEdgelist at h h3'
        obtain ⟨x, h5, h⟩ := bind_eq_ok.1 h
        rw [h5, ok_bind] at h3'
        simp only at h h3'
        split at h
        · cases h
        · rename_i hc
          rw [if_neg hc] at h3'
          obtain ⟨d, h6⟩ := loadGraph_flag (cap' := wordsNeeded (ofPairs rows) n) h
          rw [h6] at h3'
          cases h3'
          exact ⟨d, rfl⟩
      obtain ⟨d, rfl⟩ := hf
      exact main h4 d (.edgelist hn hl h3')
        ((h4'.kept_iff he).2 (Or.inl (Nat.le_refl _)))
    · rw [h2 hv] at h; cases h
  | @matrix argLR cap n A pg hn h =>
    obtain ⟨pg1, G, h3, h4⟩ := fromMatrix_spec argLR cap (A := A) hn
    rw [h] at h3
    cases h3
    obtain ⟨pg', G', h3', h4'⟩ := fromMatrix_spec argLR (wordsNeeded (ofMatrix n A) n) (A := A) hn
    have hf : ∃ d, pg' = pg.flag d := by
      unfold PyGraph.fromMatrix at h h3'
      rw [if_neg (by simp)] at h h3'
      obtain ⟨x, h5, h⟩ := bind_eq_ok.1 h
      rw [h5, ok_bind] at h3'
      simp only at h h3'
      split at h
      · cases h
      · rename_i hc
        rw [if_neg hc] at h3'
        obtain ⟨d, h6⟩ := loadGraph_flag (cap' := wordsNeeded (ofMatrix n A) n) h
        rw [h6] at h3'
        cases h3'
        exact ⟨d, rfl⟩
    obtain ⟨d, rfl⟩ := hf
    exact main h4 d (.matrix hn h3')
      ((h4'.kept_iff he).2 (Or.inl (Nat.le_refl _)))
  | @adjlist argLR cap n m sets pg hn hs hl h =>
    obtain ⟨h1, h2⟩ := fromAdjList_spec argLR cap (n := n) (m := m) (sets := sets) hn hs hl
    obtain ⟨h1', h2'⟩ := fromAdjList_spec argLR (wordsNeeded (ofSets sets) n) (n := n) (m := m)
      (sets := sets) hn hs hl
    by_cases hv : ValidSets sets n ∧ entries sets / 2 = m
    · obtain ⟨pg1, G, h3, h4⟩ := h1 hv
      rw [h] at h3
      cases h3
      obtain ⟨pg', G', h3', h4'⟩ := h1' hv
      have hf : ∃ d, pg' = pg.flag d := by
        unfold PyGraph.fromAdjList at h h3'
        split at h
        · cases h
        · rename_i hc
          rw [if_neg hc] at h3'
          split at h
          · cases h
          · rename_i hc
            rw [if_neg hc] at h3'
            obtain ⟨x, h5, h⟩ := bind_eq_ok.1 h
            rw [h5, ok_bind] at h3'
            simp only at h h3'
            split at h
            · cases h
            · rename_i hc
              rw [if_neg hc] at h3'
              obtain ⟨d, h6⟩ := loadGraph_flag (cap' := wordsNeeded (ofSets sets) n) h
              rw [h6] at h3'
              cases h3'
              exact ⟨d, rfl⟩
      obtain ⟨d, rfl⟩ := hf
      exact main h4 d (.adjlist hn hs hl h3')
        ((h4'.kept_iff he).2 (Or.inl (Nat.le_refl _)))
    · rw [h2 hv] at h; cases h
  | @built argLR cap n m edges pg S hn hl hD h =>
    obtain ⟨pg1, G, h3, h4⟩ := loadGraph_spec hD hn hl argLR cap m
    rw [h] at h3
    cases h3
    obtain ⟨pg', G', h3', h4'⟩ := loadGraph_spec hD hn hl argLR (wordsNeeded S n) m
    obtain ⟨d, h6⟩ := loadGraph_flag (cap' := wordsNeeded S n) h
    rw [h6] at h3'
    cases h3'
    exact main h4 d (.built hn hl hD h6)
      ((h4'.kept_iff he).2 (Or.inl (Nat.le_refl _)))

end CM
