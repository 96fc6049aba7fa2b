import Verif.Lemmas.NWSearch
import Verif.Lemmas.AdjList

/-! # The constructor of weighted graphs -/

namespace CM

open Graph Spec

theorem forRange_ub {σ : Type} (P : Nat → Prop) {lo hi : Nat} {body : Nat → σ → M σ}
    (h1 : ∀ k s, lo ≤ k → k < hi → P k → ∃ s', body k s = .ok s')
    (h2 : ∀ k s, lo ≤ k → k < hi → ¬ P k → body k s = .error .ub)
    (hx : ∃ k, lo ≤ k ∧ k < hi ∧ ¬ P k) (s : σ) : forRange lo hi body s = .error .ub := by
  unfold forRange
  have key : ∀ n i (s : σ), lo ≤ i → i + n = hi → (∃ k, i ≤ k ∧ k < hi ∧ ¬ P k) →
      forN n i body s = .error .ub := by
    intro n
    induction n with
    | zero => rintro i s _ h ⟨k, a, b, _⟩; omega
    | succ n ih =>
      rintro i s hi' h ⟨k, a, b, c⟩
      unfold forN
      by_cases hp : P i
      · obtain ⟨s', hs⟩ := h1 i s hi' (by omega) hp
        rw [hs]
        refine ih (i + 1) s' (by omega) (by omega) ⟨k, ?_, b, c⟩
        by_cases hik : i = k
        · subst hik; exact absurd hp c
        · omega
      · rw [h2 i s hi' (by omega) hp]
  obtain ⟨k, a, b, c⟩ := hx
  exact key _ _ _ (Nat.le_refl _) (by omega) ⟨k, a, b, c⟩

theorem rd_ub {α : Type} {l : List α} {i : Nat} (h : l.length ≤ i) : rd l i = .error .ub := by
  unfold rd; rw [List.getElem?_eq_none h]

theorem rat_filter_sum_succ (f : Nat → Rat) (P : Nat → Prop) [DecidablePred P] (k : Nat) :
    ∑ i ∈ (Finset.range (k + 1)).filter P, f i =
      (∑ i ∈ (Finset.range k).filter P, f i) + if P k then f k else 0 := by
  rw [Finset.range_add_one, Finset.filter_insert]
  split
  · rw [Finset.sum_insert (by simp), add_comm]
  · simp

namespace NWG

open ExactNum

set_option linter.unusedSectionVars false

variable {R : Type} [Zero R] [Add R] [Sub R] [NatCast R] [LT R] [LE R] [DecidableLT R]
  [DecidableLE R] [ExactNum R] {H : NWG R}

/-- A list of weights whose sums over distinct entries are all exact. -/
structure XL (wts : List R) : Prop where
  num : ∀ v, v < wts.length → Num (wts.getD v 0)
  sums : ∀ T : Finset Nat, (∀ v ∈ T, v < wts.length) → Rep R (∑ v ∈ T, val (wts.getD v 0))

theorem str_inj {g : Graph} (s : Str g) {r : Nat} (hr : r < g.nVert) {i j : Nat}
    (hi : i < (g.V r).N) (hj : j < (g.V r).N) (he : g.e r i = g.e r j) : i = j := by
  rcases Nat.lt_trichotomy i j with h1 | h1 | h1
  · have := s.sorted r hr i j h1 hj; omega
  · exact h1
  · have := s.sorted r hr j i h1 hi; omega

/-- The weights of a set of neighbours. -/
theorem XL.pos {wts : List R} (x : XL wts) {g : Graph} (s : Str g) {r : Nat} (hr : r < g.nVert)
    {S : Finset Nat} (hS : ∀ i ∈ S, i < (g.V r).N ∧ g.e r i < wts.length) :
    Rep R (∑ i ∈ S, val (wts.getD (g.e r i) 0)) := by
  have h := x.sums (S.image (g.e r)) (by
    intro v hv
    obtain ⟨i, hi, rfl⟩ := Finset.mem_image.1 hv
    exact (hS i hi).2)
  rwa [Finset.sum_image (fun i hi j hj he => str_inj s hr (hS i hi).1 (hS j hj).1 he)] at h

/-- nwgraph.cpp:47-56 -/
theorem degOf_spec {g : Graph} (s : Str g) {wts : List R} (x : XL wts) {i : Nat} (hi : i < g.nVert)
    (hw : ∀ j, j < (g.V i).N → g.e i j < wts.length) :
    degOf g wts i = .ok (fin (∑ j ∈ Finset.range (g.V i).N, val (wts.getD (g.e i j) 0))) := by
  unfold degOf
  rw [s.vtx_ok hi, ok_bind]
  obtain ⟨d, h1, h2⟩ := forRange_rule (lo := 0) (hi := (g.V i).N) (s := (0 : R))
    (body := fun j d => do
      let x ← g.nbr (g.V i) j
      let w ← rd wts x
      .ok (d + w))
    (fun k d => d = fin (∑ j ∈ Finset.range k, val (wts.getD (g.e i j) 0))) (Nat.zero_le _)
    (by simp [fin_zero])
    (by
      rintro k d _ hk rfl
      rw [s.nbr_ok hi hk, ok_bind, rd_getD 0 (hw k hk), ok_bind]
      refine ⟨_, rfl, ?_⟩
      rw [Finset.sum_range_succ, x.num _ (hw k hk)]
      simp only [val_fin]
      apply ExactNum.add
      rw [← Finset.sum_range_succ (fun j => val (wts.getD (g.e i j) 0))]
      apply x.pos s hi
      intro j hj
      have : j < (g.V i).N := by rw [Finset.mem_range] at hj; omega
      exact ⟨this, hw j this⟩)
  rw [h1, h2]

theorem degOf_ub {g : Graph} (s : Str g) {wts : List R} {i : Nat} (hi : i < g.nVert)
    (hw : ∃ j, j < (g.V i).N ∧ wts.length ≤ g.e i j) :
    degOf g wts i = .error .ub := by
  unfold degOf
  rw [s.vtx_ok hi, ok_bind]
  apply forRange_ub (P := fun j => g.e i j < wts.length)
  · intro k d _ hk hP
    rw [s.nbr_ok hi hk, ok_bind, rd_getD 0 hP, ok_bind]
    exact ⟨_, rfl⟩
  · intro k d _ hk hP
    rw [s.nbr_ok hi hk, ok_bind, rd_ub (by omega), error_bind]
  · obtain ⟨j, h1, h2⟩ := hw
    exact ⟨j, Nat.zero_le _, h1, by omega⟩

/-- nwgraph.cpp:86-105 -/
theorem mcsOf_spec (s : Str H.g) (l : Lens H) (x : XL H.wt) (hd : ∀ v, v < H.g.nVert → Num (H.d v))
    {r : Nat} (hr : r < H.g.nVert) :
    H.mcsOf r = .ok (fin (H.wsum r (H.wCand r) + val (H.w r))) := by
  have hsp := s.spos r hr
  let P : Nat → Prop := fun i => (i < (H.g.V r).spos ∧ H.dq r < H.dq (H.g.e r i)) ∨
    ((H.g.V r).spos ≤ i ∧ H.dq r ≤ H.dq (H.g.e r i))
  haveI : DecidablePred P := fun i => inferInstanceAs (Decidable (_ ∨ _))
  have hwl : ∀ v, v < H.g.nVert → v < H.wt.length := fun v hv => by rw [l.wt]; exact hv
  have hadd : ∀ k, k < (H.g.V r).N → P k →
      fin (∑ i ∈ (Finset.range k).filter P, H.qe r i) + H.w (H.g.e r k) =
        (fin ((∑ i ∈ (Finset.range k).filter P, H.qe r i) + H.qe r k) : R) := by
    intro k hk hP
    have he := s.e_lt hr hk
    rw [show H.w (H.g.e r k) = fin (H.qe r k) from x.num _ (hwl _ he)]
    apply ExactNum.add
    have h := x.pos s hr (S := (Finset.range (k + 1)).filter P) (by
      intro j hj
      have : j < (H.g.V r).N := by
        have := Finset.mem_range.1 (Finset.mem_filter.1 hj).1; omega
      exact ⟨this, hwl _ (s.e_lt hr this)⟩)
    change Rep R (∑ i ∈ (Finset.range (k + 1)).filter P, H.qe r i) at h
    rwa [rat_filter_sum_succ, if_pos hP] at h
  unfold mcsOf
  rw [s.vtx_ok hr, ok_bind]
  obtain ⟨m, a1, a2⟩ := forRange_rule (lo := 0) (hi := (H.g.V r).spos) (s := (0 : R))
    (body := fun j m => do
      let vert ← H.g.nbr (H.g.V r) j
      let dv ← rd H.deg vert
      let d ← rd H.deg r
      let w ← rd H.wt vert
      .ok (if dv > d then m + w else m))
    (fun k m => m = fin (∑ i ∈ (Finset.range k).filter P, H.qe r i)) (Nat.zero_le _) (by simp [fin_zero])
    (by
      rintro k m _ hk rfl
      have hkN : k < (H.g.V r).N := by omega
      have he := s.e_lt hr hkN
      rw [s.nbr_ok hr hkN, ok_bind, rd_deg l he, ok_bind, rd_deg l hr, ok_bind, rd_wt l he,
        ok_bind]
      refine ⟨_, rfl, ?_⟩
      rw [rat_filter_sum_succ]
      have hcv : H.d (H.g.e r k) > H.d r ↔ H.dq r < H.dq (H.g.e r k) :=
        (hd _ hr).lt (hd _ he)
      by_cases hc : H.d (H.g.e r k) > H.d r
      · rw [if_pos hc, if_pos (Or.inl ⟨hk, hcv.1 hc⟩), hadd k hkN (Or.inl ⟨hk, hcv.1 hc⟩)]
      · rw [if_neg hc, if_neg, add_zero]
        rw [hcv] at hc
        rintro (h | h)
        · exact hc h.2
        · omega)
  rw [a1, ok_bind]
  obtain ⟨m', b1, b2⟩ := forRange_rule (lo := (H.g.V r).spos) (hi := (H.g.V r).N) (s := m)
    (body := fun j m => do
      let vert ← H.g.nbr (H.g.V r) j
      let dv ← rd H.deg vert
      let d ← rd H.deg r
      let w ← rd H.wt vert
      .ok (if dv ≥ d then m + w else m))
    (fun k m => m = fin (∑ i ∈ (Finset.range k).filter P, H.qe r i)) (by omega) a2
    (by
      rintro k m h1 hk rfl
      have he := s.e_lt hr hk
      rw [s.nbr_ok hr hk, ok_bind, rd_deg l he, ok_bind, rd_deg l hr, ok_bind, rd_wt l he,
        ok_bind]
      refine ⟨_, rfl, ?_⟩
      rw [rat_filter_sum_succ]
      have hcv : H.d (H.g.e r k) ≥ H.d r ↔ H.dq r ≤ H.dq (H.g.e r k) :=
        (hd _ hr).le (hd _ he)
      by_cases hc : H.d (H.g.e r k) ≥ H.d r
      · rw [if_pos hc, if_pos (Or.inr ⟨h1, hcv.1 hc⟩), hadd k hk (Or.inr ⟨h1, hcv.1 hc⟩)]
      · rw [if_neg hc, if_neg, add_zero]
        rw [hcv] at hc
        rintro (h | h)
        · omega
        · exact hc h.2)
  rw [b1, b2]
  congr 2
  have : (Finset.range (H.g.V r).N).filter P = insert (H.g.V r).spos (H.wCand r) := by
    ext i
    rw [Finset.mem_insert, mem_wCand', Finset.mem_filter, Finset.mem_range]
    have hdn : i < (H.g.V r).N → ((¬ H.d (H.g.e r i) ≤ H.d r) ↔ H.dq r < H.dq (H.g.e r i)) ∧
        ((¬ H.d (H.g.e r i) < H.d r) ↔ H.dq r ≤ H.dq (H.g.e r i)) := by
      intro hi
      have he := s.e_lt hr hi
      rw [(hd _ he).le (hd _ hr), (hd _ he).lt (hd _ hr), not_le, not_lt]
      exact ⟨Iff.rfl, Iff.rfl⟩
    simp only [P]
    constructor
    · rintro ⟨h1, h2⟩
      by_cases hi : i = (H.g.V r).spos
      · exact Or.inl hi
      · refine Or.inr ⟨h1, ?_⟩
        rw [(hdn h1).1, (hdn h1).2]
        rcases h2 with h2 | h2
        · exact Or.inl h2
        · exact Or.inr ⟨by omega, h2.2⟩
    · rintro (h | ⟨h1, h2⟩)
      · subst h
        refine ⟨hsp, Or.inr ⟨Nat.le_refl _, ?_⟩⟩
        rw [s.self r hr]
      · refine ⟨h1, ?_⟩
        rw [(hdn h1).1, (hdn h1).2] at h2
        rcases h2 with h2 | h2
        · exact Or.inl h2
        · exact Or.inr ⟨by omega, h2.2⟩
  rw [this, Finset.sum_insert (by rw [mem_wCand']; omega), add_comm]
  unfold wsum qe we
  rw [s.self r hr]

/-- What `set_bounds` establishes about the weighted bounds. -/
structure WBounds (H : NWG R) : Prop where
  mcs : ∀ v, v < H.g.nVert → H.mc v = fin (H.wsum v (H.wCand v) + val (H.w v))
  le : ∀ v, v < H.g.nVert → H.wsum v (H.wCand v) + val (H.w v) ≤ H.lm
  num : Num H.limit
  nonneg : 0 ≤ H.lm
  loc : H.curLoc < H.g.nVert
  eq : (H.lm = 0 ∧ H.curLoc = 0) ∨ (0 < H.lm ∧
    H.lm = H.wsum H.curLoc (H.wCand H.curLoc) + val (H.w H.curLoc))

/-- nwgraph.cpp:79-113 -/
theorem boundsLoop_spec (s : Str H.g) (l : Lens H) (x : XL H.wt)
    (hd : ∀ v, v < H.g.nVert → Num (H.d v)) (hl : H.curLoc = 0) :
    ∃ mcs lim loc, H.boundsLoop = .ok { H with mcs := mcs, limit := lim, curLoc := loc } ∧
      mcs.length = H.g.nVert ∧ WBounds { H with mcs := mcs, limit := lim, curLoc := loc } := by
  unfold boundsLoop
  obtain ⟨H', h1, h2⟩ := forRange_rule (lo := 0) (hi := H.g.vs.length)
    (s := ({ H with limit := 0 } : NWG R))
    (body := fun cur (H : NWG R) => do
      let m ← H.mcsOf cur
      let mcs ← wr H.mcs cur m
      let H : NWG R := { H with mcs := mcs }
      if m > H.limit then .ok { H with curLoc := cur, limit := m } else .ok H)
    (fun k (H' : NWG R) => ∃ (mcs : List R) (lim : Rat) (loc : Nat),
      H' = { H with mcs := mcs, limit := fin lim, curLoc := loc } ∧
      mcs.length = H.g.nVert ∧
      (∀ v, v < k → mcs.getD v 0 = fin (H.wsum v (H.wCand v) + val (H.w v))) ∧
      (∀ v, v < k → H.wsum v (H.wCand v) + val (H.w v) ≤ lim) ∧ 0 ≤ lim ∧ loc < H.g.nVert ∧
      ((lim = 0 ∧ loc = 0) ∨ (0 < lim ∧ lim = H.wsum loc (H.wCand loc) + val (H.w loc))))
    (Nat.zero_le _)
    ⟨H.mcs, 0, H.curLoc, by rw [fin_zero], l.mcs, by intro v hv; omega, by intro v hv; omega,
      le_refl _, by rw [hl]; exact s.npos, Or.inl ⟨rfl, hl⟩⟩
    (by
      rintro k H1 _ hk ⟨mcs, lim, loc, rfl, i0, i1, i2, i3, i4, i5⟩
      have hkn : k < H.g.nVert := by rw [← s.vlen]; exact hk
      rw [mcsOf_spec (H := { H with mcs := mcs, limit := fin lim, curLoc := loc }) s
        ⟨l.wt, l.deg, i0⟩ x hd hkn, ok_bind]
      have e : NWG.wsum { H with mcs := mcs, limit := fin lim, curLoc := loc } k
          (NWG.wCand { H with mcs := mcs, limit := fin lim, curLoc := loc } k)
          + val (NWG.w { H with mcs := mcs, limit := fin lim, curLoc := loc } k)
          = H.wsum k (H.wCand k) + val (H.w k) := rfl
      rw [e, wr_ok _ (by simp only; omega), ok_bind]
      have hm : ∀ v, v < k + 1 → (mcs.set k (fin (H.wsum k (H.wCand k) + val (H.w k)))).getD v 0
          = fin (H.wsum v (H.wCand v) + val (H.w v)) := by
        intro v hv
        rw [getD_set _ (by omega)]
        by_cases hvk : v = k
        · rw [if_pos hvk, hvk]
        · rw [if_neg hvk]; exact i1 v (by omega)
      simp only
      have hgv : (fin (H.wsum k (H.wCand k) + val (H.w k)) : R) > fin lim ↔
          lim < H.wsum k (H.wCand k) + val (H.w k) := by rw [gt_iff_lt, ExactNum.lt]
      by_cases hgt : (fin (H.wsum k (H.wCand k) + val (H.w k)) : R) > fin lim
      · rw [if_pos hgt]
        rw [hgv] at hgt
        refine ⟨_, rfl, _, _, _, rfl, by simpa using i0, hm, ?_, by linarith, hkn,
          Or.inr ⟨by linarith, rfl⟩⟩
        intro v hv
        by_cases hvk : v = k
        · rw [hvk]
        · have := i2 v (by omega); linarith
      · rw [if_neg hgt]
        rw [hgv] at hgt
        refine ⟨_, rfl, _, _, _, rfl, by simpa using i0, hm, ?_, i3, i4, i5⟩
        intro v hv
        by_cases hvk : v = k
        · rw [hvk]; linarith
        · exact i2 v (by omega))
  obtain ⟨mcs, lim, loc, rfl, i0, i1, i2, i3, i4, i5⟩ := h2
  rw [s.vlen] at i1 i2
  have hlm : NWG.lm { H with mcs := mcs, limit := fin lim, curLoc := loc } = lim := val_fin _
  refine ⟨mcs, fin lim, loc, h1, i0, i1, ?_, num_fin _, ?_, i4, ?_⟩
  · rw [hlm]; exact i2
  · rw [hlm]; exact i3
  · rw [hlm]; exact i5

/-- What the constructor promises. -/
structure WBuilt (cap n : Nat) (edges : Edges) (wts : List R) (H : NWG R) : Prop where
  g : Built cap n edges H.g
  l : Lens H
  w : ∀ v, v ≤ n → H.w v = wts.getD v 0
  d : ∀ v, v ≤ n → H.d v = fin (∑ j ∈ Finset.range (H.g.V v).N, H.qe v j)
  bounds : WBounds H
  x : XL H.wt
  cm : H.curMax = 0

theorem ctor_spec {n : Nat} {edges : Edges} {wts : List R} (argLR : Bool) (cap : Nat)
    (hn : n < 2 ^ 31)
    (hlen : edges.length < 2 ^ 58) (hr : ∀ e ∈ edges, e.1 ≤ n ∧ e.2 ≤ n)
    (hself : ∀ v, v ≤ n → (v, v) ∈ edges) (hsym : ∀ u v, (u, v) ∈ edges → (v, u) ∈ edges) :
    (n + 1 = wts.length → XL wts →
      ∃ H, ctor argLR cap n edges wts = .ok H ∧ WBuilt cap n edges wts H) := by
  obtain ⟨g, a1, B⟩ := CM.ctor_spec argLR cap hn hlen hr hself hsym
  have s := B.str
  have hnv := B.nv
  unfold ctor
  rw [a1, ok_bind]
  · intro hwl x
    obtain ⟨⟨wt, deg⟩, b1, b2, b3, b4, b5⟩ := forRange_rule (lo := 0) (hi := n + 1)
      (s := (([], []) : List R × List R))
      (body := fun i (s : List R × List R) => do
        let d ← degOf g wts i
        let w ← rd wts i
        .ok (s.1 ++ [w], s.2 ++ [d]))
      (fun k s => s.1.length = k ∧ s.2.length = k ∧ (∀ v, v < k → s.1.getD v 0 = wts.getD v 0) ∧
        (∀ v, v < k → s.2.getD v 0 = fin (∑ j ∈ Finset.range (g.V v).N, val (wts.getD (g.e v j) 0))))
      (Nat.zero_le _) (by simp)
      (by
        rintro k ⟨wt, deg⟩ _ hk ⟨i1, i2, i3, i4⟩
        simp only at i1 i2 i3 i4
        rw [degOf_spec s x (by omega) (fun j hj => by
          have := s.e_lt (v := k) (by omega) hj; omega), ok_bind, rd_getD 0 (by omega), ok_bind]
        refine ⟨_, rfl, by simp [i1], by simp [i2], ?_, ?_⟩
        · intro v hv
          simp only
          by_cases hvk : v = k
          · subst hvk
            rw [List.getD_eq_getElem?_getD, List.getElem?_append_right (by omega), i1]
            simp
          · rw [List.getD_eq_getElem?_getD, List.getElem?_append_left (by omega),
              ← List.getD_eq_getElem?_getD]
            exact i3 v (by omega)
        · intro v hv
          simp only
          by_cases hvk : v = k
          · subst hvk
            rw [List.getD_eq_getElem?_getD, List.getElem?_append_right (by omega), i2]
            simp
          · rw [List.getD_eq_getElem?_getD, List.getElem?_append_left (by omega),
              ← List.getD_eq_getElem?_getD]
            exact i4 v (by omega))
    rw [b1, ok_bind]
    simp only at b2 b3 b4 b5 ⊢
    have hwts : ∀ v, wt.getD v 0 = wts.getD v 0 := by
      intro v
      by_cases hv : v < n + 1
      · exact b4 v hv
      · rw [List.getD_eq_getElem?_getD, List.getElem?_eq_none (by omega),
          List.getD_eq_getElem?_getD, List.getElem?_eq_none (by omega)]
    have xw : XL wt := by
      refine ⟨?_, ?_⟩
      · intro v hv; rw [hwts]; exact x.num v (by omega)
      · intro T hT
        simp only [hwts]
        exact x.sums T (fun v hv => by have := hT v hv; omega)
    obtain ⟨mcs, lim, loc, c1, c2, c3⟩ := boundsLoop_spec
      (H := { g := g, wt := wt, deg := deg, mcs := wt, limit := 0, curMax := 0, curLoc := 0 }) s
      ⟨by simp only; omega, by simp only; omega, by simp only; omega⟩ xw
      (by
        intro v hv
        show Num (deg.getD v 0)
        rw [b5 v (by simp only at hv; omega)]; exact num_fin _) rfl
    rw [c1]
    refine ⟨_, rfl, B, ⟨by simp only; omega, by simp only; omega, c2⟩, ?_, ?_, c3, xw, rfl⟩
    · intro v hv
      exact b4 v (by omega)
    · intro v hv
      show deg.getD v 0 = _
      rw [b5 v (by omega)]
      congr 1
      apply Finset.sum_congr rfl
      intro j hj
      rw [Finset.mem_range] at hj
      have := s.e_lt (v := v) (by omega) hj
      show _ = val (wt.getD (g.e v j) 0)
      rw [b4 _ (by omega)]

end NWG

end CM
