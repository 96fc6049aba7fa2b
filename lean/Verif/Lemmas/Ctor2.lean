import Verif.Lemmas.Ctor

/-! # `set_bounds` and the whole constructor -/

namespace CM

namespace Graph

variable {G : Graph}

/-- The structure of a loaded graph, whatever the state of the word buffer. -/
structure Str (G : Graph) : Prop where
  vlen : G.vs.length = G.nVert
  npos : 0 < G.nVert
  spos : ∀ v, v < G.nVert → (G.V v).spos < (G.V v).N
  self : ∀ v, v < G.nVert → G.e v (G.V v).spos = v
  inEl : ∀ v, v < G.nVert → (G.V v).elo + (G.V v).N ≤ G.el.length
  ellen : G.el.length < 2 ^ 60
  sorted : ∀ v, v < G.nVert → ∀ i j, i < j → j < (G.V v).N → G.e v i < G.e v j
  symm : ∀ u, u < G.nVert → ∀ w, G.nadj u w → w < G.nVert ∧ G.nadj w u

theorem WF.str (w : WF G) : Str G :=
  ⟨w.vlen, w.npos, w.spos, w.self, w.inEl, w.ellen, w.sorted, w.symm⟩

namespace Str

theorem vtx_ok (w : Str G) {v : Nat} (hv : v < G.nVert) : G.vtx v = .ok (G.V v) := by
  unfold Graph.vtx Graph.V; exact rd_getD _ (by rw [w.vlen]; exact hv)

theorem nbr_ok (w : Str G) {v i : Nat} (hv : v < G.nVert) (hi : i < (G.V v).N) :
    G.nbr (G.V v) i = .ok (G.e v i) := by
  unfold Graph.nbr Graph.e; exact rd_getD _ (by have := w.inEl v hv; omega)

theorem e_lt (w : Str G) {v i : Nat} (hv : v < G.nVert) (hi : i < (G.V v).N) :
    G.e v i < G.nVert := (w.symm v hv _ (e_nadj hi)).1

theorem frame {G' : Graph} (w : Str G) (h : Frame G G') : Str G' where
  vlen := by rw [h.vlen, h.nVert]; exact w.vlen
  npos := by rw [h.nVert]; exact w.npos
  spos v hv := by rw [h.sp, h.N]; exact w.spos v (by rwa [h.nVert] at hv)
  self v hv := by rw [h.sp, h.e]; exact w.self v (by rwa [h.nVert] at hv)
  inEl v hv := by rw [h.elo, h.N, h.el]; exact w.inEl v (by rwa [h.nVert] at hv)
  ellen := by rw [h.el]; exact w.ellen
  sorted v hv i j hij hj := by
    rw [h.e, h.e]; exact w.sorted v (by rwa [h.nVert] at hv) i j hij (by rwa [h.N] at hj)
  symm u hu v huv := by
    rw [h.nadj, h.nVert]; exact w.symm u (by rwa [h.nVert] at hu) v ((h.nadj _ _).1 huv)

end Str

theorem card_filter_range_succ (P : Nat → Prop) [DecidablePred P] (k : Nat) :
    ((Finset.range (k + 1)).filter P).card =
      ((Finset.range k).filter P).card + if P k then 1 else 0 := by
  rw [Finset.range_add_one, Finset.filter_insert]
  split
  · rw [Finset.card_insert_of_notMem (by simp)]
  · rfl

/-- graph.cpp:89-105. -/
theorem mcsOf_spec (w : Str G) {r : Nat} (hr : r < G.nVert) :
    G.mcsOf r = .ok ((G.rootCand r).card + 1) := by
  have hsp := w.spos r hr
  let P : Nat → Prop := fun i => (i < (G.V r).spos ∧ (G.V r).N < (G.V (G.e r i)).N) ∨
    ((G.V r).spos ≤ i ∧ (G.V r).N ≤ (G.V (G.e r i)).N)
  haveI : DecidablePred P := fun i => inferInstanceAs (Decidable (_ ∨ _))
  unfold mcsOf
  rw [w.vtx_ok hr, ok_bind]
  obtain ⟨m, a1, a2⟩ := forRange_rule (lo := 0) (hi := (G.V r).spos) (s := 0)
    (body := fun j m => do
      let vert ← G.nbr (G.V r) j
      let U ← G.vtx vert
      .ok (m + if U.N > (G.V r).N then 1 else 0))
    (fun k m => m = ((Finset.range k).filter P).card) (Nat.zero_le _) (by simp)
    (by
      rintro k m _ hk rfl
      have hkN : k < (G.V r).N := by omega
      rw [w.nbr_ok hr hkN, ok_bind, w.vtx_ok (w.e_lt hr hkN), ok_bind]
      refine ⟨_, rfl, ?_⟩
      rw [card_filter_range_succ]
      congr 1
      apply if_congr _ rfl rfl
      simp only [P]; omega)
  rw [a1, ok_bind]
  obtain ⟨m', b1, b2⟩ := forRange_rule (lo := (G.V r).spos) (hi := (G.V r).N) (s := m)
    (body := fun j m => do
      let vert ← G.nbr (G.V r) j
      let U ← G.vtx vert
      .ok (m + if U.N ≥ (G.V r).N then 1 else 0))
    (fun k m => m = ((Finset.range k).filter P).card) (by omega) a2
    (by
      rintro k m h1 hk rfl
      rw [w.nbr_ok hr hk, ok_bind, w.vtx_ok (w.e_lt hr hk), ok_bind]
      refine ⟨_, rfl, ?_⟩
      rw [card_filter_range_succ]
      congr 1
      apply if_congr _ rfl rfl
      simp only [P]; omega)
  rw [b1, b2]
  congr 1
  have : (Finset.range (G.V r).N).filter P = insert (G.V r).spos (G.rootCand r) := by
    ext i
    rw [Finset.mem_insert, mem_rootCand, Finset.mem_filter, Finset.mem_range]
    simp only [P]
    constructor
    · rintro ⟨h1, h2⟩
      by_cases hi : i = (G.V r).spos
      · exact Or.inl hi
      · exact Or.inr ⟨h1, by omega⟩
    · rintro (h | ⟨h1, h2⟩)
      · subst h
        refine ⟨hsp, Or.inr ⟨Nat.le_refl _, ?_⟩⟩
        rw [w.self r hr]
      · exact ⟨h1, by omega⟩
  rw [this, Finset.card_insert_of_notMem]
  rw [mem_rootCand]; omega

theorem Str.rootCand_lt (w : Str G) {r : Nat} (hr : r < G.nVert) :
    (G.rootCand r).card + 1 ≤ (G.V r).N := by
  have hsp := w.spos r hr
  have : insert (G.V r).spos (G.rootCand r) ⊆ Finset.range (G.V r).N := by
    intro i hi
    rw [Finset.mem_insert, mem_rootCand] at hi
    rw [Finset.mem_range]
    rcases hi with h | h <;> omega
  have h2 := Finset.card_le_card this
  rw [Finset.card_insert_of_notMem (by rw [mem_rootCand]; omega), Finset.card_range] at h2
  exact h2

/-- What `set_bounds` establishes about the search bounds. -/
structure Bounds (G : Graph) : Prop where
  mcs : ∀ v, v < G.nVert → (G.V v).mcs = (G.rootCand v).card + 1
  le : ∀ v, v < G.nVert → (G.rootCand v).card + 1 ≤ G.limit
  loc : G.curLoc < G.nVert
  eq : G.limit = (G.rootCand G.curLoc).card + 1

/-- graph.cpp:87-112. -/
theorem boundsLoop_spec (w : Str G) (hl : G.curLoc = 0) :
    ∃ vs lim loc, G.boundsLoop = .ok { G with vs := vs, limit := lim, curLoc := loc } ∧
      Frame G { G with vs := vs, limit := lim, curLoc := loc } ∧
      Bounds { G with vs := vs, limit := lim, curLoc := loc } := by
  unfold boundsLoop
  obtain ⟨G', h1, h2⟩ := forRange_rule (lo := 0) (hi := G.vs.length) (s := { G with limit := 0 })
    (body := fun cur G => do
      let m ← G.mcsOf cur
      let G ← G.setMcs cur m
      if m > G.limit then .ok { G with curLoc := cur, limit := m } else .ok G)
    (fun k G' => ∃ vs lim loc, G' = { G with vs := vs, limit := lim, curLoc := loc } ∧
      Frame G G' ∧ (∀ v, v < k → (G'.V v).mcs = (G.rootCand v).card + 1) ∧
      (∀ v, v < k → (G.rootCand v).card + 1 ≤ lim) ∧ loc < G.nVert ∧
      ((k = 0 ∧ lim = 0) ∨ (0 < k ∧ lim = (G.rootCand loc).card + 1)))
    (Nat.zero_le _)
    ⟨G.vs, 0, G.curLoc, rfl, ⟨rfl, rfl, fun _ => ⟨rfl, rfl, rfl, rfl⟩, rfl, rfl, rfl, rfl, rfl, rfl, rfl⟩,
      by intro v hv; omega, by intro v hv; omega, by rw [hl]; exact w.npos, Or.inl ⟨rfl, rfl⟩⟩
    (by
      rintro k G1 _ hk ⟨vs, lim, loc, e1, F, i1, i2, i3, i4⟩
      have hkn : k < G.nVert := by rw [← w.vlen]; exact hk
      have hk1 : k < G1.nVert := by rw [F.nVert]; exact hkn
      rw [mcsOf_spec (w.frame F) hk1, ok_bind,
        setMcs_spec _ _ (by rw [F.vlen]; exact hk), ok_bind, F.rootCand]
      have hV : ∀ u, (Graph.V { G1 with
          vs := G1.vs.set k { G1.V k with mcs := (G.rootCand k).card + 1 } } u) =
          if u = k then { G1.V k with mcs := (G.rootCand k).card + 1 } else G1.V u := by
        intro u; exact V_set _ (by rw [F.vlen]; exact hk) u
      have hF : ∀ l c, Frame G { G1 with
          vs := G1.vs.set k { G1.V k with mcs := (G.rootCand k).card + 1 }, limit := l, curLoc := c } := by
        intro l c
        refine F.trans ⟨rfl, by simp, ?_, rfl, rfl, rfl, rfl, rfl, rfl, rfl⟩
        intro v
        have := hV v
        simp only [Graph.V] at this ⊢
        rw [this]
        split
        · subst_vars; exact ⟨rfl, rfl, rfl, rfl⟩
        · exact ⟨rfl, rfl, rfl, rfl⟩
      have hm : ∀ v, v < k + 1 → (Graph.V { G1 with
          vs := G1.vs.set k { G1.V k with mcs := (G.rootCand k).card + 1 } } v).mcs =
          (G.rootCand v).card + 1 := by
        intro v hv
        rw [hV]
        by_cases hvk : v = k
        · rw [if_pos hvk, hvk]
        · rw [if_neg hvk]; exact i1 v (by omega)
      have hlim1 : G1.limit = lim := by rw [e1]
      simp only
      rw [hlim1]
      by_cases hgt : (G.rootCand k).card + 1 > lim
      · rw [if_pos hgt]
        refine ⟨_, rfl, _, _, _, by rw [e1], hF _ _, hm, ?_, hkn, Or.inr ⟨by omega, rfl⟩⟩
        intro v hv
        by_cases hvk : v = k
        · rw [hvk]
        · have := i2 v (by omega); omega
      · rw [if_neg hgt]
        have hh := hF lim G1.curLoc
        refine ⟨_, rfl, G1.vs.set k { G1.V k with mcs := (G.rootCand k).card + 1 }, lim, loc,
          by rw [e1], hh, hm, ?_, i3, Or.inr ⟨by omega, ?_⟩⟩
        · intro v hv
          by_cases hvk : v = k
          · rw [hvk]; omega
          · exact i2 v (by omega)
        · rcases i4 with h | h
          · omega
          · exact h.2)
  obtain ⟨vs, lim, loc, rfl, F, i1, i2, i3, i4⟩ := h2
  rw [w.vlen] at i1 i2 i4
  refine ⟨vs, lim, loc, h1, F, ?_, ?_, i3, ?_⟩
  · intro v hv; rw [F.rootCand]; exact i1 v hv
  · intro v hv; rw [F.rootCand]; exact i2 v hv
  · rw [F.rootCand]
    rcases i4 with h | h
    · have := w.npos; omega
    · exact h.2

end Graph

open Graph

theorem ebOff_lt_lo {E : Edges} {v : Nat} (h : 2 ≤ dN E v) :
    ∀ i, v < i → ebOff E i < lo E i := by
  intro i
  induction i with
  | zero => intro h; omega
  | succ i ih =>
    intro hv
    have h1 := ebOff_le_lo E i
    have h2 := @dlen_le_self (dN E i)
    rw [ebOff_succ, lo_succ]
    by_cases hvi : v = i
    · subst hvi
      have : dlen (dN E v) < dN E v := by
        have := @dlen_lt (dN E v); omega
      omega
    · have := ih (by omega); omega

theorem dN_ge_two {E : Edges} {n : Nat} (h : EOk E n) {u v : Nat} (huv : (u, v) ∈ E) (hne : u ≠ v) :
    2 ≤ dN E u := by
  obtain ⟨p, hp, hpe⟩ := mem_iff_ev.1 huv
  obtain ⟨q, hq, hqe⟩ := mem_iff_ev.1 (h.self u (h.range _ huv).1)
  have h1 := (block_iff h.strict (i := u) hp).2 (by rw [hpe])
  have h2 := (block_iff h.strict (i := u) hq).2 (by rw [hqe])
  have : p ≠ q := by
    rintro rfl
    rw [hpe] at hqe
    exact hne (Prod.mk.inj hqe).2.symm
  omega

theorem bitAt_resize {m : Mem} {n : Nat} (h : m.length ≤ n) (a : Nat) :
    bitAt (resizeMem m n) a = bitAt m a := by
  unfold resizeMem
  rw [List.take_of_length_le h]
  unfold bitAt
  rw [List.getD_eq_getElem?_getD, List.getD_eq_getElem?_getD, List.getElem?_append]
  split
  · rfl
  · rename_i h'
    rw [List.getElem?_eq_none (l := m) (by omega), List.getElem?_replicate]
    split <;> rfl

theorem resize_length {m : Mem} {n : Nat} (h : m.length ≤ n) : (resizeMem m n).length = n := by
  unfold resizeMem
  rw [List.take_of_length_le h]; simp; omega

/-- The structure left by the constructor's main loop. -/
theorem CtorInv.str {E : Edges} {n : Nat} (h : EOk E n) (hlen : E.length < 2 ^ 60) {G : Graph}
    (I : CtorInv E n (n + 1) G) :
    Str G ∧ ∀ u w, u ≤ n → (G.nadj u w ↔ (u, w) ∈ E) := by
  have he : ∀ v, v ≤ n → ∀ i, G.e v i = (ev E (lo E v + i)).2 := by
    intro v hv i
    unfold Graph.e
    rw [I.el, (I.vrec v (by omega)).2.1, getD_map_snd]
  have hb : ∀ v, v ≤ n → lo E v + dN E v ≤ E.length := by
    intro v _; rw [← lo_succ]; exact lo_le_length _ _
  have hadj : ∀ u w, u ≤ n → (G.nadj u w ↔ (u, w) ∈ E) := by
    intro u w hu
    unfold Graph.nadj
    rw [(I.vrec u (by omega)).1, mem_iff_ev]
    have hbu := hb u hu
    constructor
    · rintro ⟨i, hi, rfl⟩
      refine ⟨lo E u + i, by omega, ?_⟩
      rw [he u hu]
      have := (block_iff h.strict (i := u) (p := lo E u + i) (by omega)).1 ⟨by omega, by omega⟩
      exact Prod.ext this rfl
    · rintro ⟨p, hp, hpe⟩
      have := (block_iff h.strict (i := u) hp).2 (by rw [hpe])
      refine ⟨p - lo E u, by omega, ?_⟩
      rw [he u hu]
      have hp' : lo E u + (p - lo E u) = p := by omega
      rw [hp', hpe]
  have hnv := I.nv
  refine ⟨⟨by rw [I.vlen, I.nv], by omega, ?_, ?_, ?_, ?_, ?_, ?_⟩, hadj⟩
  · intro v hv
    have := I.vrec v (by omega)
    rw [this.1]; exact this.2.2.2.1
  · intro v hv
    have := I.vrec v (by omega)
    rw [he v (by omega), this.2.2.2.2]
  · intro v hv
    have := I.vrec v (by omega)
    have := hb v (by omega)
    rw [I.el, List.length_map]; omega
  · rw [I.el, List.length_map]; exact hlen
  · intro v hv i j hij hj
    have hv' := I.vrec v (by omega)
    have hbv := hb v (by omega)
    rw [hv'.1] at hj
    rw [he v (by omega), he v (by omega)]
    have h1 := ev_strict h.strict (p := lo E v + i) (q := lo E v + j) (by omega) (by omega)
    have h3 := (block_iff h.strict (i := v) (p := lo E v + i) (by omega)).1 ⟨by omega, by omega⟩
    have h4 := (block_iff h.strict (i := v) (p := lo E v + j) (by omega)).1 ⟨by omega, by omega⟩
    unfold lexLt at h1
    omega
  · intro u hu w huw
    rw [hadj u w (by omega)] at huw
    have := h.range _ huw
    simp only at this
    refine ⟨by omega, ?_⟩
    rw [hadj w u (by omega)]
    exact h.symm _ _ huw

/-- The memory the searches need, in words. -/
def Graph.need (G : Graph) : Nat := G.ebSize + 2 * (G.limit + 1) * dlen G.maxDeg + 1

/-- How large the parts of a graph object are. -/
structure Sizes (n : Nat) (G : Graph) : Prop where
  len : G.el.length = ∑ v ∈ Finset.range (n + 1), (G.V v).N
  ebs : G.ebSize = ∑ v ∈ Finset.range (n + 1), dlen (G.V v).N
  maxa : ∃ v, v ≤ n ∧ G.maxDeg = (G.V v).N
  lim : G.limit ≤ G.maxDeg

/-- What the constructor promises. -/
structure Built (cap n : Nat) (edges : Edges) (G : Graph) : Prop where
  str : Str G
  nv : G.nVert = n + 1
  adj : ∀ u w, u ≤ n → (G.nadj u w ↔ (u, w) ∈ edges)
  bounds : Bounds G
  cm : G.curMax = 0
  maxd : ∀ v, v < G.nVert → (G.V v).N ≤ G.maxDeg
  maxd' : G.maxDeg ≤ n + 1
  ebs : 64 * G.ebSize ≤ G.el.length + 63 * (n + 1)
  ebs' : G.ebSize ≤ G.el.length
  ell : G.el.length ≤ edges.length
  dang : (∃ e ∈ edges, e.1 ≠ e.2) →
    (G.dangling = false ↔ G.need ≤ cap ∨ G.need < G.el.length)
  ok : (∃ e ∈ edges, e.1 ≠ e.2) → G.dangling = false → Ok G
  sing : (∃ e ∈ edges, e.1 ≠ e.2) → ∀ v, v < G.nVert → bset G.eb (G.vb v) = {(G.V v).spos}
  sizes : Sizes n G
  bare : (¬ ∃ e ∈ edges, e.1 ≠ e.2) → G.eb.length = G.ebSize ∧ G.searchCur = 1 + G.ebSize

theorem ebOff_lt64 (E : Edges) : ∀ i, 64 * ebOff E i ≤ lo E i + 63 * i := by
  intro i
  induction i with
  | zero => simp [ebOff]
  | succ i ih =>
    have := @dlen_lt (dN E i)
    rw [ebOff_succ, lo_succ]; omega

/-- The graph `G` with the fields that `set_bounds` may change. -/
@[reducible] def Graph.bnd (G : Graph) (vs : List Vtx) (lim loc : Nat) (eb : Mem) (se : Nat)
    (dg : Bool) : Graph :=
  { G with vs := vs, limit := lim, curLoc := loc, eb := eb, searchEnd := se, dangling := dg }

theorem setBounds_spec {E : Edges} {n cap : Nat} {edges : Edges} (h : EOk E n)
    (hE : ∀ e, e ∈ E ↔ e ∈ edges) (hl : E.length ≤ edges.length)
    (hn : n < 2 ^ 31) (hlen : edges.length < 2 ^ 58) {G : Graph} (I : CtorInv E n (n + 1) G)
    (hs : G.searchStart = 1 + G.ebSize) (hc : G.searchCur = 1 + G.ebSize)
    (hend : G.searchEnd = G.eb.length) :
    ∃ G', G.setBounds cap = .ok G' ∧ Built cap n edges G' := by
  obtain ⟨str, hadj⟩ := I.str h (by
    have : (2 : Nat) ^ 58 < 2 ^ 60 := by decide
    omega)
  obtain ⟨vs, lim, loc, a1, F, B⟩ := boundsLoop_spec str I.cl
  have hloE : lo E (n + 1) = E.length := lo_end (fun e he => (h.range e he).1)
  have hebS : G.ebSize = ebOff E (n + 1) := I.ebS
  have hoff := ebOff_le_lo E (n + 1)
  have hoff64 := ebOff_lt64 E (n + 1)
  have hebl := I.ebl
  have hmd := I.maxd'
  have helE : G.el.length = E.length := by rw [I.el, List.length_map]
  unfold setBounds
  rw [a1, ok_bind]
  simp only
  have hnv := I.nv
  have hlimN : lim ≤ n + 1 := by
    have h1 := B.eq
    have h2 := (str.frame F).rootCand_lt B.loc
    have h3 := B.loc
    simp only at h1 h3
    have h4 := F.N loc
    have h5 := I.vrec loc (by omega)
    have h6 := dN_le h.strict h.range loc
    simp only at h2
    omega
  have hprod : 2 * (lim + 1) * dlen G.maxDeg ≤ 2 ^ 59 := by
    have h1 : dlen G.maxDeg ≤ 2 ^ 26 := by
      have := @dlen_lt G.maxDeg
      have : (2 : Nat) ^ 31 + 64 ≤ 64 * 2 ^ 26 := by decide
      omega
    have h2 : 2 * (lim + 1) ≤ 2 ^ 33 := by
      have : (2 : Nat) ^ 31 + 2 ≤ 2 ^ 32 := by decide
      have : (2 : Nat) ^ 33 = 2 * 2 ^ 32 := by decide
      omega
    calc 2 * (lim + 1) * dlen G.maxDeg ≤ 2 ^ 33 * 2 ^ 26 := Nat.mul_le_mul h2 h1
      _ = 2 ^ 59 := by decide
  -- the facts that do not depend on the buffer
  have mk : ∀ (eb : Mem) (se : Nat) (dg : Bool),
      ((∃ e ∈ edges, e.1 ≠ e.2) → (dg = false ↔
        G.ebSize + 2 * (lim + 1) * dlen G.maxDeg + 1 ≤ cap ∨
        G.ebSize + 2 * (lim + 1) * dlen G.maxDeg + 1 < G.el.length)) →
      ((∃ e ∈ edges, e.1 ≠ e.2) → (∀ a, bitAt eb a = bitAt G.eb a) ∧
        G.ebSize + 2 * (lim + 1) * dlen G.maxDeg + 1 ≤ eb.length ∧ eb.length < 2 ^ 60) →
      ((¬ ∃ e ∈ edges, e.1 ≠ e.2) → eb.length = G.ebSize) →
      Built cap n edges (G.bnd vs lim loc eb se dg) := by
    intro eb se dg hdg hok hbare
    have hVe : ∀ v, Graph.V (G.bnd vs lim loc eb se dg) v =
        Graph.V { G with vs := vs, limit := lim, curLoc := loc } v := fun _ => rfl
    have str' : Str (G.bnd vs lim loc eb se dg) := by
      have s := str.frame F
      exact ⟨s.vlen, s.npos, s.spos, s.self, s.inEl, s.ellen, s.sorted, s.symm⟩
    have hadj' : ∀ u w, (Graph.nadj (G.bnd vs lim loc eb se dg) u w ↔ G.nadj u w) := by
      intro u w
      exact F.nadj u w
    have hV : ∀ v, v ≤ n → (Graph.V (G.bnd vs lim loc eb se dg) v).N = dN E v ∧
        (Graph.V (G.bnd vs lim loc eb se dg) v).ebo = ebOff E v ∧
        (Graph.V (G.bnd vs lim loc eb se dg) v).spos = (G.V v).spos := by
      intro v hv
      have h1 := I.vrec v (by omega)
      exact ⟨(F.N v).trans h1.1, (F.ebo v).trans h1.2.2.1, F.sp v⟩
    have hbs : (∃ e ∈ edges, e.1 ≠ e.2) → ∀ v, v < Graph.nVert (G.bnd vs lim loc eb se dg) →
        bset eb (Graph.vb (G.bnd vs lim loc eb se dg) v) = {(Graph.V (G.bnd vs lim loc eb se dg) v).spos} := by
      intro hedge v hv
      obtain ⟨o1, o2, o3⟩ := hok hedge
      have hv' : v ≤ n := by simp only at hv; omega
      ext i
      rw [mem_bset, Finset.mem_singleton, (hV v hv').2.2]
      simp only [vb]
      rw [(hV v hv').1, (hV v hv').2.1, o1]
      have hsp := (I.vrec v (by omega)).2.2.2.1
      have hdl := @dlen_le (dN E v)
      constructor
      · rintro ⟨h1, h2⟩
        rw [I.bits v (by omega) i (by omega)] at h2
        exact of_decide_eq_true h2
      · rintro rfl
        refine ⟨hsp, ?_⟩
        rw [I.bits v (by omega) _ (by omega)]
        exact decide_eq_true rfl
    refine ⟨str', hnv, ?_, ⟨B.mcs, B.le, B.loc, B.eq⟩, I.cm, ?_, hmd,
      by simp only; omega, by simp only; omega, by simp only; omega, hdg, ?_, hbs, ?_,
      fun hb => ⟨hbare hb, hc⟩⟩
    · intro u w hu
      rw [hadj', hadj u w hu, hE]
    · intro v hv
      have hv' : v ≤ n := by simp only at hv; omega
      rw [(hV v hv').1]
      exact I.maxd v (by omega)
    · intro hedge hd
      obtain ⟨o1, o2, o3⟩ := hok hedge
      have wf : WF (G.bnd vs lim loc eb se dg) := by
        refine ⟨str'.vlen, str'.npos, str'.spos, str'.self, str'.inEl, str'.ellen, str'.sorted,
          str'.symm, ?_, ?_, ?_, o3, ?_, ?_, hd⟩
        · intro v hv
          have hv' : v ≤ n := by simp only at hv; omega
          rw [(hV v hv').1]
          exact I.maxd v (by omega)
        · intro u v huv hv
          have hv' : v ≤ n := by simp only at hv; omega
          rw [(hV v hv').2.1, (hV u (by omega)).2.1, (hV u (by omega)).1, ← ebOff_succ]
          exact ebOff_mono (by omega)
        · intro v hv
          have hv' : v ≤ n := by simp only at hv; omega
          rw [(hV v hv').2.1, (hV v hv').1, ← ebOff_succ]
          simp only
          rw [hebS]
          exact ebOff_mono (by omega)
        · simp only; omega
        · exact ⟨lim, B.le, by simp only; omega⟩
      refine ⟨wf, by simp only; omega, ?_, ?_, ?_, B.loc⟩
      · intro a ha
        simp only at ha ⊢
        rw [o1]
        by_cases hal : a < 64 * E.length
        · exact I.zeros a (by omega) (by omega)
        · exact bitAt_oob (by omega)
      · intro v hv i h1 h2
        have hv' : v ≤ n := by simp only at hv; omega
        simp only [vb] at h1 h2 ⊢
        rw [(hV v hv').1] at h1 h2
        rw [(hV v hv').2.1, o1, I.bits v (by omega) i h2]
        have := (I.vrec v (by omega)).2.2.2.1
        rw [decide_eq_false]; omega
      · intro v hv
        have hv' : v ≤ n := by simp only at hv; omega
        have hb := hbs hedge v hv
        simp only at hb ⊢
        rw [hb]
        refine ⟨Finset.mem_singleton_self _, ?_, ?_⟩
        · intro i hi
          rw [Finset.mem_singleton.1 hi]; exact str'.spos v hv
        · intro i hi j hj
          rw [Finset.mem_singleton.1 hi, Finset.mem_singleton.1 hj]
          rw [str'.self v hv]
          exact ⟨_, str'.spos v hv, str'.self v hv⟩
    · refine ⟨?_, ?_, ?_, ?_⟩
      · simp only
        rw [helE, ← hloE, lo_eq_sum]
        apply Finset.sum_congr rfl
        intro v hv
        rw [Finset.mem_range] at hv
        exact ((hV v (by omega)).1).symm
      · simp only
        rw [hebS]
        unfold ebOff
        apply Finset.sum_congr rfl
        intro v hv
        rw [Finset.mem_range] at hv
        rw [(hV v (by omega)).1]
      · rcases I.maxa with h1 | ⟨v, h1, h2⟩
        · have h3 := I.maxd 0 (by omega)
          have h4 := (I.vrec 0 (by omega)).2.2.2.1
          omega
        · exact ⟨v, by omega, by simp only; rw [(hV v (by omega)).1, h2]⟩
      · have h1 := B.eq
        have h2 := (str.frame F).rootCand_lt B.loc
        have h3 := B.loc
        simp only at h1 h2 h3 ⊢
        have h4 := F.N loc
        have h5 := I.vrec loc (by omega)
        have h6 := I.maxd loc (by omega)
        omega
  have hspread : (∃ e ∈ edges, e.1 ≠ e.2) →
      usub G.searchEnd G.searchStart = E.length - (1 + G.ebSize) ∧ 1 + G.ebSize ≤ E.length := by
    rintro ⟨⟨u, v⟩, he, hne⟩
    have h1 := (hE _).2 he
    have h2 := ebOff_lt_lo (dN_ge_two h h1 hne) (n + 1)
      (by have := (h.range _ h1).1; simp only at this; omega)
    rw [hend, hs, hebl]
    refine ⟨usub_eq (by omega) ?_, by omega⟩
    have : (2 : Nat) ^ 58 < 2 ^ 64 := by decide
    omega
  have hbare : (¬ ∃ e ∈ edges, e.1 ≠ e.2) → G.eb.length = G.ebSize := by
    intro hno
    have hdN : ∀ v, v ≤ n → dN E v = 1 := by
      intro v hv
      have h1 := I.vrec v (by omega)
      have h2 : ¬ 1 < (G.V v).N := by
        intro h3
        have h4 := str.sorted v (by omega) 0 1 (by omega) h3
        have h5 : ∀ i, i < (G.V v).N → G.e v i = v := by
          intro i hi
          have h6 := (hE _).1 ((hadj v _ (by omega)).1 ⟨i, hi, rfl⟩)
          by_contra hne
          exact hno ⟨_, h6, fun h => hne h.symm⟩
        rw [h5 0 (by omega), h5 1 h3] at h4
        omega
      omega
    rw [hebl, hebS, ← hloE, lo_eq_sum]
    unfold ebOff
    apply Finset.sum_congr rfl
    intro v hv
    rw [Finset.mem_range] at hv
    rw [hdN v (by omega)]
    rfl
  by_cases hsp : usub G.searchEnd G.searchStart < 2 * (lim + 1) * dlen G.maxDeg + 1
  · rw [if_pos hsp]
    refine ⟨_, rfl, mk _ _ _ ?_ ?_ ?_⟩
    rotate_right
    · intro hno
      exfalso
      have h1 := hbare hno
      rw [hend, hs, h1] at hsp
      unfold usub at hsp
      have : (2 : Nat) ^ 58 + 2 ^ 59 + 1 < 2 ^ 64 - 1 := by decide
      omega
    · intro hedge
      obtain ⟨s1, s2⟩ := hspread hedge
      rw [decide_eq_false_iff_not]
      omega
    · intro hedge
      obtain ⟨s1, s2⟩ := hspread hedge
      have hle : G.eb.length ≤ G.ebSize + 2 * (lim + 1) * dlen G.maxDeg + 1 := by omega
      refine ⟨bitAt_resize hle, ?_, ?_⟩
      · rw [resize_length hle]
      · rw [resize_length hle]
        have : (2 : Nat) ^ 58 + 2 ^ 59 + 1 < 2 ^ 60 := by decide
        omega
  · rw [if_neg hsp]
    refine ⟨_, rfl, mk G.eb G.searchEnd G.dangling (fun hedge => ⟨fun _ => ?_, fun _ => I.dg⟩) ?_
      hbare⟩
    · obtain ⟨s1, s2⟩ := hspread hedge
      omega
    intro hedge
    obtain ⟨s1, s2⟩ := hspread hedge
    refine ⟨fun _ => rfl, by omega, ?_⟩
    have : (2 : Nat) ^ 58 < 2 ^ 60 := by decide
    omega

/-- The constructor on a symmetric edge array with every self loop. -/
theorem ctor_spec {n : Nat} {edges : Edges} (argLR : Bool) (cap : Nat) (hn : n < 2 ^ 31)
    (hlen : edges.length < 2 ^ 58) (hr : ∀ e ∈ edges, e.1 ≤ n ∧ e.2 ≤ n)
    (hself : ∀ v, v ≤ n → (v, v) ∈ edges) (hsym : ∀ u v, (u, v) ∈ edges → (v, u) ∈ edges) :
    ∃ G, ctor argLR cap n edges = .ok G ∧ Built cap n edges G := by
  have h28 : (2 : Nat) ^ 31 + 1 < 2 ^ 60 := by decide
  have h60 : (2 : Nat) ^ 60 < 2 ^ 64 := by decide
  obtain ⟨E, a1, a2, a3⟩ := cleanEdges_spec (n := n + 1) (edges := edges) (by omega) (by omega)
    (fun e he => ⟨by have := (hr e he).1; omega, by have := (hr e he).2; omega⟩)
  have hEl : E.length ≤ edges.length := by
    have hnd : E.Nodup := a2.imp (by
      intro x y hxy hne; subst hne; unfold lexLt at hxy; omega)
    have h1 : E.toFinset = edges.toFinset := by
      ext e; rw [List.mem_toFinset, List.mem_toFinset, a3]
    have h2 := List.toFinset_card_of_nodup hnd
    have h3 := List.toFinset_card_le edges
    rw [← h1, h2] at h3; exact h3
  have h : EOk E n :=
    ⟨a2, fun e he => hr e ((a3 e).1 he), fun v hv => (a3 _).2 (hself v hv),
      fun u v huv => (a3 _).2 (hsym u v ((a3 _).1 huv))⟩
  unfold ctor
  rw [a1, ok_bind]
  simp only
  obtain ⟨G, b1, b2⟩ := forRange_rule (lo := 0) (hi := n + 1)
    (s := { Graph.empty argLR with
      el := E.map Prod.snd
      eb := E.map (fun e => BitVec.ofNat 64 e.1)
      nVert := n + 1 })
    (body := ctorStep) (fun i G => CtorInv E n i G) (Nat.zero_le _)
    (by
      refine ⟨rfl, ?_, ?_, by simp, rfl, by intro v hv; omega, by intro v hv; omega, ?_, ?_,
        by intro v hv; omega, Nat.zero_le _, rfl, rfl, rfl, rfl, Or.inl rfl⟩
      · rw [lo_zero]; rfl
      · simp [ebOff, Graph.empty]
      · intro a _ ha; rw [lo_zero] at ha; omega
      · intro p _ hp
        simp only
        rw [List.getD_eq_getElem?_getD, List.getElem?_map]
        unfold ev
        rw [List.getD_eq_getElem?_getD, List.getElem?_eq_getElem hp]; rfl)
    (by
      intro k G1 _ hk I
      exact ctorStep_spec h (by omega) (by omega) I)
  rw [b1, ok_bind]
  have I : CtorInv E n (n + 1) { G with
      searchStart := 1 + G.ebSize
      searchCur := 1 + G.ebSize
      searchEnd := G.eb.length } :=
    ⟨b2.el, b2.elS, b2.ebS, b2.ebl, b2.vlen, b2.vrec, b2.bits, b2.zeros, b2.rest, b2.maxd,
      b2.maxd', b2.nv, b2.cm, b2.cl, b2.dg, b2.maxa⟩
  exact setBounds_spec h a3 hEl hn hlen I rfl rfl rfl

end CM
