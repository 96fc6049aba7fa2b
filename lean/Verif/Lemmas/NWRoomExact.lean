import Verif.Lemmas.RoomExact
import Verif.Lemmas.NWCut
import Verif.Lemmas.AWApi

/-! # Weighted loads with more room -/

namespace CM

open Spec

variable {R : Type} [Zero R] [Add R] [Sub R] [NatCast R] [LT R] [LE R] [DecidableLT R]
  [DecidableLE R] {n : Nat} {S : SimpleGraph Nat} {ω : Nat → R}

omit [Sub R] [NatCast R] [LT R] [LE R] [DecidableLT R] [DecidableLE R] in
theorem wkept_iff {cap m : Nat} {pg : PyNW R} {H : NWG R} (h : NWG.AW.WLoadedAs cap n m S ω pg H)
    (he : ∃ u v, S.Adj u v) :
    (∀ H, pg.G = some H → H.g.dangling = false) ↔
      wordsNeeded S n ≤ cap ∨ wordsNeeded S n < wordsStored S n := by
  rw [← need_eq h.of h.str h.sizes h.bounds h.maxd, ← el_eq h.of h.str h.sizes, ← h.dang he, h.eq]
  constructor
  · intro h'; exact h' H rfl
  · intro h' H' hH; cases hH; exact h'

/-- The graph with a given answer to "was the buffer moved". -/
def NWG.flag (d : Bool) (H : NWG R) : NWG R := { H with g := { H.g with dangling := d } }

def PyNW.flag (d : Bool) (pg : PyNW R) : PyNW R := { pg with G := pg.G.map (NWG.flag d) }

omit [Sub R] [NatCast R] in
theorem boundsLoop_flag (d : Bool) (H : NWG R) :
    Cut (NWG.flag d) (NWG.flag d H).boundsLoop H.boundsLoop := by
  unfold NWG.boundsLoop
  refine Cut.forRange (f := NWG.flag d) ?_ 0 _ { H with limit := 0 }
  intro i H
  refine Cut.same fun m => Cut.same fun mcs => ?_
  exact Cut.ite (Cut.pure (f := NWG.flag d) { H with mcs := mcs, curLoc := i, limit := m })
    (Cut.pure (f := NWG.flag d) { H with mcs := mcs })

theorem wctor_flag {argLR : Bool} {cap cap' n : Nat} {edges : Edges} {wts : List R} {H H' : NWG R}
    (h : NWG.ctor argLR cap n edges wts = .ok H) (h' : NWG.ctor argLR cap' n edges wts = .ok H') :
    ∃ d, H' = H.flag d := by
  unfold NWG.ctor at h h'
  obtain ⟨g, h1, h⟩ := bind_eq_ok.1 h
  obtain ⟨d, h2⟩ := ctor_flag (cap' := cap') h1
  rw [h2, ok_bind] at h'
  obtain ⟨c, h3, h⟩ := bind_eq_ok.1 h
  have e : forRange 0 (n + 1) (fun i (s : List R × List R) => do
      let x ← NWG.degOf { g with dangling := d } wts i
      let w ← rd wts i
      .ok (s.1 ++ [w], s.2 ++ [x])) ([], []) = .ok c := h3
  rw [e, ok_bind] at h'
  refine ⟨d, ?_⟩
  have h5 := boundsLoop_flag d _ _ h
  have h6 : Cut (NWG.flag d) (.ok H') (.ok H) := by
    intro b hb
    cases hb
    rw [← h']
    exact h5
  rcases h6 _ rfl with h4 | h4
  · cases h4
  · cases h4; rfl

theorem wloadGraph_flag {argLR : Bool} {cap cap' n m : Nat} {edges : Edges} {wts : List R}
    {pg0 pg pg' : PyNW R}
    (h : PyNW.loadGraph argLR cap pg0 n m edges wts = .ok pg)
    (h' : PyNW.loadGraph argLR cap' pg0 n m edges wts = .ok pg') : ∃ d, pg' = pg.flag d := by
  unfold PyNW.loadGraph at h h'
  obtain ⟨H, h1, h⟩ := bind_eq_ok.1 h
  obtain ⟨H', h1', h'⟩ := bind_eq_ok.1 h'
  obtain ⟨d, rfl⟩ := wctor_flag h1 h1'
  cases h
  cases h'
  exact ⟨d, rfl⟩

/-- A load whose buffer was moved is the same load with more room, apart from that. -/
theorem WLoaded.moved {pg : PyNW R} (h : WLoaded pg n S ω) (he : ∃ u v, S.Adj u v)
    (hk : ¬ ∀ H, pg.G = some H → H.g.dangling = false) :
    ∃ pg0 H, WLoaded pg0 n S ω ∧ (∀ H, pg0.G = some H → H.g.dangling = false) ∧
      pg0.G = some H ∧ pg = { pg0 with G := some H.mv } := by
  have main : ∀ {cap m : Nat} {H : NWG R}, NWG.AW.WLoadedAs cap n m S ω pg H → ∀ d : Bool,
      WLoaded (pg.flag d) n S ω → (∀ H, (pg.flag d).G = some H → H.g.dangling = false) →
      ∃ pg0 H, WLoaded pg0 n S ω ∧ (∀ H, pg0.G = some H → H.g.dangling = false) ∧
        pg0.G = some H ∧ pg = { pg0 with G := some H.mv } := by
    intro cap m H hL d hl hb
    refine ⟨pg.flag d, H.flag d, hl, hb, by rw [hL.eq]; rfl, ?_⟩
    have : H.g.dangling = true := by
      by_contra hd
      apply hk
      intro G' hG
      rw [hL.eq] at hG
      cases hG
      simpa using hd
    rw [hL.eq]
    unfold PyNW.flag NWG.flag NWG.mv Graph.mv
    simp only
    rw [← this]
  cases h with
  | @edgelist argLR cap rows n wts pg hn hl h =>
    obtain ⟨h1, h2⟩ := NWG.AW.wfromEdgelist_spec argLR cap (rows := rows) (wts := wts) hn hl
    obtain ⟨h1', h2'⟩ := NWG.AW.wfromEdgelist_spec argLR (wordsNeeded (ofPairs rows) n) (rows := rows)
      (wts := wts) hn hl
    by_cases hv : ValidRows rows n ∧ wts.length = n
    · obtain ⟨pg1, H, h3, h4⟩ := h1 hv
      rw [h] at h3
      cases h3
      obtain ⟨pg', H', h3', h4'⟩ := h1' hv
      have hf : ∃ d, pg' = pg.flag d := by
        have h3s := h3'
        unfold PyNW.fromEdgelist at h h3s
        split at h
        · cases h
        · rename_i hc
          rw [if_neg hc] at h3s
          obtain ⟨x, h5, h⟩ := bind_eq_ok.1 h
          rw [h5, ok_bind] at h3s
          simp only at h h3s
          split at h
          · cases h
          · rename_i hc
            rw [if_neg hc] at h3s
            exact wloadGraph_flag h h3s
      obtain ⟨d, rfl⟩ := hf
      exact main h4 d (.edgelist hn hl h3') ((wkept_iff h4' he).2 (Or.inl (Nat.le_refl _)))
    · rw [h2 hv] at h; cases h
  | @matrix argLR cap n A wts pg hn h =>
    obtain ⟨h1, h2⟩ := NWG.AW.wfromMatrix_spec argLR cap (A := A) (wts := wts) hn
    obtain ⟨h1', h2'⟩ := NWG.AW.wfromMatrix_spec argLR (wordsNeeded (ofMatrix n A) n) (A := A)
      (wts := wts) hn
    by_cases hv : wts.length = n
    · obtain ⟨pg1, H, h3, h4⟩ := h1 hv
      rw [h] at h3
      cases h3
      obtain ⟨pg', H', h3', h4'⟩ := h1' hv
      have hf : ∃ d, pg' = pg.flag d := by
        have h3s := h3'
        unfold PyNW.fromMatrix at h h3s
        split at h
        · cases h
        · rename_i hc
          rw [if_neg hc] at h3s
          split at h
          · cases h
          · rename_i hc
            rw [if_neg hc] at h3s
            obtain ⟨x, h5, h⟩ := bind_eq_ok.1 h
            rw [h5, ok_bind] at h3s
            simp only at h h3s
            split at h
            · cases h
            · rename_i hc
              rw [if_neg hc] at h3s
              exact wloadGraph_flag h h3s
      obtain ⟨d, rfl⟩ := hf
      exact main h4 d (.matrix hn h3') ((wkept_iff h4' he).2 (Or.inl (Nat.le_refl _)))
    · rw [h2 hv] at h; cases h
  | @adjlist argLR cap n m sets wts pg hn hl h =>
    obtain ⟨h1, h2⟩ := NWG.AW.wfromAdjList_spec argLR cap (m := m) (sets := sets) (wts := wts) hn hl
    by_cases hv : ValidSets sets n ∧ wts.length = n ∧ entries sets / 2 = m
    · rw [h1 hv] at h; cases h
    · rw [h2 hv] at h; cases h

end CM
