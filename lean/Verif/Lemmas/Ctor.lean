import Verif.Lemmas.Clean
import Verif.Lemmas.Search

/-! # The constructor of the graph class (graph.cpp:26-139) -/

namespace CM

open Graph

/-- Number of entries whose first endpoint is below `i`. -/
def lo (E : Edges) (i : Nat) : Nat := E.countP fun e => decide (e.1 < i)

/-- Number of entries whose first endpoint is `i`. -/
def dN (E : Edges) (i : Nat) : Nat := lo E (i + 1) - lo E i

/-- Where the bit set of vertex `i` starts. -/
def ebOff (E : Edges) (i : Nat) : Nat := ∑ v ∈ Finset.range i, dlen (dN E v)

/-- What the loaders hand to the constructor, after cleaning. -/
structure EOk (E : Edges) (n : Nat) : Prop where
  strict : E.Pairwise lexLt
  range : ∀ e ∈ E, e.1 ≤ n ∧ e.2 ≤ n
  self : ∀ v, v ≤ n → (v, v) ∈ E
  symm : ∀ u v, (u, v) ∈ E → (v, u) ∈ E

theorem ev_cons_zero (x : Nat × Nat) (E : Edges) : ev (x :: E) 0 = x := rfl
theorem ev_cons_succ (x : Nat × Nat) (E : Edges) (p : Nat) : ev (x :: E) (p + 1) = ev E p := rfl

theorem lo_iff {E : Edges} (hE : E.Pairwise lexLt) {i : Nat} :
    ∀ {p : Nat}, p < E.length → (p < lo E i ↔ (ev E p).1 < i) := by
  induction E with
  | nil => intro p h; simp at h
  | cons x E ih =>
    intro p hp
    rw [List.pairwise_cons] at hE
    have hlo : lo (x :: E) i = lo E i + if x.1 < i then 1 else 0 := by
      unfold lo; rw [List.countP_cons]; simp
    rw [hlo]
    by_cases hx : x.1 < i
    · rw [if_pos hx]
      cases p with
      | zero => simp [ev_cons_zero, hx]
      | succ p =>
        rw [ev_cons_succ, ← ih hE.2 (by simpa using hp)]; omega
    · rw [if_neg hx]
      have h0 : lo E i = 0 := by
        unfold lo
        rw [List.countP_eq_zero]
        intro e he
        have := hE.1 e he
        unfold lexLt at this
        simp only [decide_eq_true_eq]; omega
      rw [h0]
      have : i ≤ (ev (x :: E) p).1 := by
        cases p with
        | zero => rw [ev_cons_zero]; omega
        | succ p =>
          rw [ev_cons_succ]
          have := hE.1 (ev E p) (mem_iff_ev.2 ⟨p, by simpa using hp, rfl⟩)
          unfold lexLt at this; omega
      omega

theorem lo_le_length (E : Edges) (i : Nat) : lo E i ≤ E.length := List.countP_le_length

theorem lo_mono {E : Edges} {i j : Nat} (h : i ≤ j) : lo E i ≤ lo E j := by
  unfold lo
  apply List.countP_mono_left
  intro e _ he
  simp only [decide_eq_true_eq] at *; omega

theorem lo_zero (E : Edges) : lo E 0 = 0 := by
  unfold lo; rw [List.countP_eq_zero]; intro e _; simp

theorem lo_end {E : Edges} {n : Nat} (h : ∀ e ∈ E, e.1 ≤ n) : lo E (n + 1) = E.length := by
  unfold lo; rw [List.countP_eq_length]
  intro e he; have := h e he; simp only [decide_eq_true_eq]; omega

theorem lo_succ (E : Edges) (i : Nat) : lo E (i + 1) = lo E i + dN E i := by
  have := lo_mono (E := E) (Nat.le_succ i)
  unfold dN; simp only [Nat.succ_eq_add_one] at this; omega

theorem block_iff {E : Edges} (hE : E.Pairwise lexLt) {i p : Nat} (hp : p < E.length) :
    (lo E i ≤ p ∧ p < lo E i + dN E i) ↔ (ev E p).1 = i := by
  rw [← lo_succ, lo_iff hE hp]
  have := lo_iff hE hp (i := i)
  omega

theorem ev_strict {E : Edges} (hE : E.Pairwise lexLt) {p q : Nat} (h : p < q)
    (hq : q < E.length) : lexLt (ev E p) (ev E q) := by
  have := List.pairwise_iff_getElem.1 hE p q (by omega) hq h
  unfold ev
  rw [List.getD_eq_getElem?_getD, List.getD_eq_getElem?_getD, List.getElem?_eq_getElem hq,
    List.getElem?_eq_getElem (by omega)]
  exact this

theorem ev_inj {E : Edges} (hE : E.Pairwise lexLt) {p q : Nat} (hp : p < E.length)
    (hq : q < E.length) (h : ev E p = ev E q) : p = q := by
  rcases Nat.lt_trichotomy p q with h1 | h1 | h1
  · have := ev_strict hE h1 hq; rw [h] at this; unfold lexLt at this; omega
  · exact h1
  · have := ev_strict hE h1 hp; rw [h] at this; unfold lexLt at this; omega

theorem ebOff_succ (E : Edges) (i : Nat) : ebOff E (i + 1) = ebOff E i + dlen (dN E i) := by
  unfold ebOff; rw [Finset.sum_range_succ]

theorem lo_eq_sum (E : Edges) (i : Nat) : lo E i = ∑ v ∈ Finset.range i, dN E v := by
  induction i with
  | zero => unfold lo; simp
  | succ i ih => rw [lo_succ, Finset.sum_range_succ, ih]

theorem ebOff_mono {E : Edges} {i j : Nat} (h : i ≤ j) : ebOff E i ≤ ebOff E j := by
  induction j with
  | zero => have : i = 0 := by omega
            subst this; exact Nat.le_refl _
  | succ j ih =>
    by_cases hij : i = j + 1
    · rw [hij]
    · have := ih (by omega); rw [ebOff_succ]; omega

theorem ebOff_le_lo (E : Edges) : ∀ i, ebOff E i ≤ lo E i := by
  intro i
  induction i with
  | zero => simp [ebOff]
  | succ i ih =>
    have := @dlen_le_self (dN E i)
    rw [ebOff_succ, lo_succ]; omega

theorem dN_le {E : Edges} {n : Nat} (hE : E.Pairwise lexLt) (h : ∀ e ∈ E, e.1 ≤ n ∧ e.2 ≤ n)
    (i : Nat) : dN E i ≤ n + 1 := by
  have hlen : lo E i + dN E i ≤ E.length := by rw [← lo_succ]; exact lo_le_length _ _
  have hmono : ∀ k, k < dN E i → k ≤ (ev E (lo E i + k)).2 := by
    intro k
    induction k with
    | zero => intro _; exact Nat.zero_le _
    | succ k ih =>
      intro hk
      have h1 := ih (by omega)
      have h2 := ev_strict hE (p := lo E i + k) (q := lo E i + (k + 1)) (by omega) (by omega)
      have h3 := (block_iff hE (i := i) (p := lo E i + k) (by omega)).1 ⟨by omega, by omega⟩
      have h4 := (block_iff hE (i := i) (p := lo E i + (k + 1)) (by omega)).1 ⟨by omega, by omega⟩
      unfold lexLt at h2
      omega
  by_cases h0 : dN E i = 0
  · omega
  · have h1 := hmono (dN E i - 1) (by omega)
    have h2 := h (ev E (lo E i + (dN E i - 1))) (mem_iff_ev.2 ⟨_, by omega, rfl⟩)
    omega

theorem dN_pos {E : Edges} {n : Nat} (h : EOk E n) {v : Nat} (hv : v ≤ n) : 0 < dN E v := by
  obtain ⟨p, hp, he⟩ := mem_iff_ev.1 (h.self v hv)
  have := (block_iff h.strict (i := v) hp).2 (by rw [he])
  omega

theorem getD_map_snd (E : Edges) (p : Nat) : (E.map Prod.snd).getD p 0 = (ev E p).2 := by
  unfold ev
  rw [List.getD_eq_getElem?_getD, List.getElem?_map, List.getD_eq_getElem?_getD]
  cases E[p]? <;> rfl

/-- graph.cpp:56-60. -/
theorem ctorScan_spec {E : Edges} {n : Nat} (h : EOk E n) (hn : n < 2 ^ 60) {i : Nat} (hi : i ≤ n)
    {eb : Mem} (hl : eb.length = E.length)
    (hrest : ∀ p, lo E i ≤ p → p < E.length → eb.getD p 0#64 = BitVec.ofNat 64 (ev E p).1) :
    ∃ eb' s, ctorScan (E.map Prod.snd) (lo E i) i eb = .ok (eb', dN E i, s) ∧
      eb'.length = E.length ∧ s < dN E i ∧ ev E (lo E i + s) = (i, i) ∧
      (∀ a, bitAt eb' a = if 64 * lo E i ≤ a ∧ a < 64 * (lo E i + dN E i) then false
        else bitAt eb a) := by
  obtain ⟨p0, hp0, he0⟩ := mem_iff_ev.1 (h.self i hi)
  have hb0 := (block_iff h.strict (i := i) hp0).2 (by rw [he0])
  have hlen : lo E i + dN E i ≤ E.length := by rw [← lo_succ]; exact lo_le_length _ _
  unfold ctorScan
  obtain ⟨⟨eb', j, s⟩, h1, h2⟩ := loop_rule
    (fun st : Mem × Nat × Nat => st.1.length = E.length ∧ st.2.1 ≤ dN E i ∧
      (p0 < lo E i + st.2.1 → st.2.2 = p0 - lo E i) ∧
      (∀ p, lo E i + st.2.1 ≤ p → st.1.getD p 0#64 = eb.getD p 0#64) ∧
      ∀ a, bitAt st.1 a = if 64 * lo E i ≤ a ∧ a < 64 * (lo E i + st.2.1) then false
        else bitAt eb a)
    (fun r : Mem × Nat × Nat => r.1.length = E.length ∧ r.2.1 = dN E i ∧
      r.2.2 = p0 - lo E i ∧
      ∀ a, bitAt r.1 a = if 64 * lo E i ≤ a ∧ a < 64 * (lo E i + r.2.1) then false
        else bitAt eb a)
    (fun st => E.length - st.2.1)
    (body := fun (s : Mem × Nat × Nat) =>
      let (eb, j, spos) := s
      if lo E i + j < (E.map Prod.snd).length then do
        let w ← rd eb (lo E i + j)
        if w.toNat = i then do
          let eb ← wr eb (lo E i + j) 0#64
          let x ← rd (E.map Prod.snd) (lo E i + j)
          .ok (.inl (eb, j + 1, if x = i then j else spos))
        else .ok (.inr (eb, j, spos))
      else .ok (.inr (eb, j, spos)))
    (by
      rintro ⟨m, j, sp⟩ ⟨i1, i2, i3, i4, i5⟩
      simp only [List.length_map] at i1 i2 i3 i4 i5 ⊢
      by_cases hj : lo E i + j < E.length
      · rw [if_pos hj, rd_getD 0#64 (by omega), ok_bind, i4 _ (Nat.le_refl _),
          hrest _ (by omega) hj]
        have hr := (h.range _ (mem_iff_ev.2 ⟨_, hj, rfl⟩)).1
        have htn : (BitVec.ofNat 64 (ev E (lo E i + j)).1).toNat = (ev E (lo E i + j)).1 := by
          rw [BitVec.toNat_ofNat, Nat.mod_eq_of_lt]
          clear * - hr hn
          have : (2 : Nat) ^ 60 < 2 ^ 64 := by decide
          omega
        rw [htn]
        have hblk := block_iff h.strict (i := i) hj
        by_cases hw : (ev E (lo E i + j)).1 = i
        · rw [if_pos hw, wr_ok _ (by omega), ok_bind, rd_getD 0 (by simpa using hj), ok_bind,
            getD_map_snd]
          have := hblk.2 hw
          left
          refine ⟨_, rfl, ⟨by simpa using i1, by simp only; omega, ?_, ?_, ?_⟩, by simp only; omega⟩
          · intro hlt
            simp only at hlt ⊢
            by_cases hx : (ev E (lo E i + j)).2 = i
            · rw [if_pos hx]
              have : lo E i + j = p0 := by
                apply ev_inj h.strict hj hp0
                rw [he0]; exact Prod.ext hw hx
              omega
            · rw [if_neg hx]
              apply i3
              have : p0 ≠ lo E i + j := by
                rintro rfl
                rw [he0] at hx; exact hx rfl
              omega
          · intro p hp
            simp only at hp ⊢
            rw [List.getD_eq_getElem?_getD, List.getElem?_set_ne (by omega),
              ← List.getD_eq_getElem?_getD]
            exact i4 p (by omega)
          · intro a
            simp only
            rw [bitAt_set (by omega), i5 a]
            by_cases ha : a / 64 = lo E i + j
            · rw [if_pos ha, if_pos (by omega)]; simp
            · rw [if_neg ha]
              by_cases hc : 64 * lo E i ≤ a ∧ a < 64 * (lo E i + j)
              · rw [if_pos hc, if_pos (by omega)]
              · rw [if_neg hc, if_neg (by omega)]
        · rw [if_neg hw]
          have hjd : j = dN E i := by
            by_contra hne
            exact hw (hblk.1 ⟨by omega, by omega⟩)
          exact Or.inr ⟨_, rfl, i1, hjd, i3 (by omega), i5⟩
      · rw [if_neg hj]
        have hjd : j = dN E i := by omega
        exact Or.inr ⟨_, rfl, i1, hjd, i3 (by omega), i5⟩)
    (fuel := (E.map Prod.snd).length + 1) (s := (eb, 0, 0))
    ⟨hl, Nat.zero_le _, by simp only; omega, fun _ _ => rfl, fun a => by
      simp only; rw [if_neg (by omega)]⟩
    (by simp)
  obtain ⟨b1, b2, b3, b4⟩ := h2
  simp only at b1 b2 b3 b4
  subst b2
  refine ⟨eb', s, h1, b1, by omega, ?_, b4⟩
  have : lo E i + s = p0 := by omega
  rw [this, he0]

/-- The constructor's main loop after `i` vertices. -/
structure CtorInv (E : Edges) (n i : Nat) (G : Graph) : Prop where
  el : G.el = E.map Prod.snd
  elS : G.elSize = lo E i
  ebS : G.ebSize = ebOff E i
  ebl : G.eb.length = E.length
  vlen : G.vs.length = i
  vrec : ∀ v, v < i → (G.V v).N = dN E v ∧ (G.V v).elo = lo E v ∧ (G.V v).ebo = ebOff E v ∧
    (G.V v).spos < dN E v ∧ ev E (lo E v + (G.V v).spos) = (v, v)
  bits : ∀ v, v < i → ∀ k, k < 64 * dlen (dN E v) →
    bitAt G.eb (64 * ebOff E v + k) = decide (k = (G.V v).spos)
  zeros : ∀ a, 64 * ebOff E i ≤ a → a < 64 * lo E i → bitAt G.eb a = false
  rest : ∀ p, lo E i ≤ p → p < E.length → G.eb.getD p 0#64 = BitVec.ofNat 64 (ev E p).1
  maxd : ∀ v, v < i → dN E v ≤ G.maxDeg
  maxd' : G.maxDeg ≤ n + 1
  nv : G.nVert = n + 1
  cm : G.curMax = 0
  cl : G.curLoc = 0
  dg : G.dangling = false
  maxa : G.maxDeg = 0 ∨ ∃ v, v < i ∧ G.maxDeg = dN E v

theorem getD_append_len {α : Type} (l : List α) (x d : α) (v : Nat) :
    (l ++ [x]).getD v d = if v < l.length then l.getD v d else if v = l.length then x else d := by
  rw [List.getD_eq_getElem?_getD, List.getD_eq_getElem?_getD]
  by_cases h : v < l.length
  · rw [if_pos h, List.getElem?_append_left h]
  · rw [if_neg h, List.getElem?_append_right (by omega)]
    by_cases h' : v = l.length
    · rw [if_pos h', h']; simp
    · rw [if_neg h']
      have : v - l.length ≠ 0 := by omega
      rw [List.getElem?_eq_none (by simp; omega)]; rfl

theorem ctorStep_spec {E : Edges} {n : Nat} (h : EOk E n) (hn : n < 2 ^ 60) {i : Nat} (hi : i ≤ n)
    {G : Graph} (I : CtorInv E n i G) :
    ∃ G', ctorStep i G = .ok G' ∧ CtorInv E n (i + 1) G' := by
  unfold ctorStep
  obtain ⟨eb', s, a1, a2, a3, a4, a5⟩ := ctorScan_spec h hn hi I.ebl I.rest
  rw [I.el, I.elS, a1, ok_bind]
  simp only
  have hoff := ebOff_le_lo E i
  have hdl := @dlen_le_self (dN E i)
  have hlen : lo E i + dN E i ≤ E.length := by rw [← lo_succ]; exact lo_le_length _ _
  have hsd := div_lt_dlen a3
  have hebS := I.ebS
  obtain ⟨m, b1, b2, b3⟩ := GBits.set_spec ⟨G.ebSize, dN E i⟩ eb' s (by simp only; omega)
  rw [b1, ok_bind]
  simp only at b3
  rw [hebS] at b3
  refine ⟨_, rfl, ?_⟩
  have hV : ∀ v, (Graph.V { G with
      el := E.map Prod.snd
      eb := m
      vs := G.vs ++ [{ N := dN E i, spos := s, elo := lo E i, ebo := G.ebSize, mcs := 1 }]
      elSize := lo E i + dN E i
      ebSize := G.ebSize + dlen (dN E i)
      maxDeg := if dN E i > G.maxDeg then dN E i else G.maxDeg } v) =
      if v < i then G.V v else if v = i then
        { N := dN E i, spos := s, elo := lo E i, ebo := G.ebSize, mcs := 1 } else ⟨0, 0, 0, 0, 0⟩ := by
    intro v
    unfold Graph.V
    simp only
    rw [getD_append_len, I.vlen]
  refine ⟨rfl, ?_, ?_, by simp only; omega, by simp [I.vlen], ?_, ?_, ?_, ?_, ?_, ?_, I.nv, I.cm, I.cl, I.dg,
    ?_⟩
  · simp only; rw [lo_succ]
  · simp only; rw [ebOff_succ, I.ebS]
  · intro v hv
    rw [hV]
    by_cases hvi : v < i
    · rw [if_pos hvi]; exact I.vrec v hvi
    · have : v = i := by omega
      subst this
      rw [if_neg hvi, if_pos rfl]
      exact ⟨rfl, rfl, hebS, a3, a4⟩
  · intro v hv k hk
    rw [hV]
    simp only
    rw [b3, a5]
    by_cases hvi : v < i
    · rw [if_pos hvi]
      have h1 := ebOff_mono (E := E) (show v + 1 ≤ i by omega)
      rw [ebOff_succ] at h1
      rw [if_neg (by omega), I.bits v hvi k hk]
      have : 64 * ebOff E v + k ≠ 64 * ebOff E i + s := by omega
      simp [this]
    · have : v = i := by omega
      subst this
      rw [if_neg hvi, if_pos rfl]
      simp only
      have hz : (if 64 * lo E v ≤ 64 * ebOff E v + k ∧ 64 * ebOff E v + k < 64 * (lo E v + dN E v)
          then false else bitAt G.eb (64 * ebOff E v + k)) = false := by
        split
        · rfl
        · exact I.zeros _ (by omega) (by omega)
      rw [hz, Bool.or_false]
      apply decide_eq_decide.2
      omega
  · intro a h1 h2
    simp only
    rw [ebOff_succ] at h1
    rw [lo_succ] at h2
    have hs64 : s < 64 * dlen (dN E i) := Nat.lt_of_lt_of_le a3 dlen_le
    rw [b3, a5]
    have : a ≠ 64 * ebOff E i + s := by omega
    simp only [this, decide_false, Bool.false_or]
    split
    · rfl
    · exact I.zeros a (by omega) (by omega)
  · intro p h1 h2
    rw [lo_succ] at h1
    rw [← I.rest p (by omega) h2]
    simp only
    have hs64 : s < 64 * dlen (dN E i) := Nat.lt_of_lt_of_le a3 dlen_le
    apply BitVec.eq_of_getMsbD_eq
    intro k hk
    have := b3 (64 * p + k)
    rw [bitAt_word hk, a5, if_neg (by omega), bitAt_word hk] at this
    rw [this]
    have hne : 64 * p + k ≠ 64 * ebOff E i + s := by omega
    simp [hne]
  · intro v hv
    simp only
    by_cases hvi : v < i
    · have := I.maxd v hvi
      split <;> omega
    · have : v = i := by omega
      subst this
      split <;> omega
  · simp only
    have := dN_le h.strict h.range i
    have := I.maxd'
    split <;> omega
  · simp only
    split
    · exact Or.inr ⟨i, by omega, rfl⟩
    · rcases I.maxa with h1 | ⟨v, h1, h2⟩
      · exact Or.inl h1
      · exact Or.inr ⟨v, by omega, h2⟩

end CM
