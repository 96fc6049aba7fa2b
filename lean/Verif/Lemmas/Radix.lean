import Verif.Lemmas.Sort
import Mathlib.Algebra.Order.BigOperators.Group.Finset

/-! # `radixSort` (utils.cpp:35-90) -/

namespace CM

theorem digit_lt (kf : Bool) (shift : Nat) (x : Nat × Nat) : digit kf shift x < 16 :=
  Nat.mod_lt _ (by decide)

theorem getD_set {α : Type} {l : List α} {i : Nat} (h : i < l.length) (x d : α) (p : Nat) :
    (l.set i x).getD p d = if p = i then x else l.getD p d := by
  simp only [List.getD, List.getElem?_set]
  by_cases hp : i = p
  · subst hp; simp [h]
  · have : ¬ p = i := fun h => hp h.symm
    simp [hp, this]

theorem rd_ev {a : Edges} {p : Nat} (h : p < a.length) : rd a p = .ok (ev a p) :=
  rd_getD (0, 0) h

/-- Number of entries of `[start, en)` whose digit is `d`. -/
def cntD (a : Edges) (start en shift : Nat) (kf : Bool) (d : Nat) : Nat :=
  ((Finset.Ico start en).filter fun p => digit kf shift (ev a p) = d).card

/-- Where bin `d` starts. -/
def binB (a : Edges) (start en shift : Nat) (kf : Bool) (d : Nat) : Nat :=
  start + ((Finset.Ico start en).filter fun p => digit kf shift (ev a p) < d).card

variable {a : Edges} {start en shift : Nat} {kf : Bool}

theorem binB_zero : binB a start en shift kf 0 = start := by
  simp [binB]

theorem binB_end (h : start ≤ en) : binB a start en shift kf 16 = en := by
  unfold binB
  rw [Finset.filter_true_of_mem (fun p _ => digit_lt _ _ _), Nat.card_Ico]
  omega

theorem binB_succ (d : Nat) : binB a start en shift kf (d + 1) =
    binB a start en shift kf d + cntD a start en shift kf d := by
  unfold binB cntD
  rw [Nat.add_assoc]
  congr 1
  rw [← Finset.card_union_of_disjoint]
  · congr 1
    ext p
    simp only [Finset.mem_filter, Finset.mem_union]
    constructor
    · rintro ⟨h1, h2⟩
      by_cases h : digit kf shift (ev a p) = d
      · exact Or.inr ⟨h1, h⟩
      · exact Or.inl ⟨h1, by omega⟩
    · rintro (⟨h1, h2⟩ | ⟨h1, h2⟩)
      · exact ⟨h1, by omega⟩
      · exact ⟨h1, by omega⟩
  · rw [Finset.disjoint_left]
    intro p h1 h2
    simp only [Finset.mem_filter] at h1 h2
    omega

theorem binB_mono {d d' : Nat} (h : d ≤ d') :
    binB a start en shift kf d ≤ binB a start en shift kf d' := by
  unfold binB
  apply Nat.add_le_add_left
  apply Finset.card_le_card
  intro p hp
  simp only [Finset.mem_filter] at hp ⊢
  exact ⟨hp.1, by omega⟩

theorem binB_ge (d : Nat) : start ≤ binB a start en shift kf d := by unfold binB; omega

theorem binB_le (h : start ≤ en) {d : Nat} (hd : d ≤ 16) : binB a start en shift kf d ≤ en := by
  exact Nat.le_trans (binB_mono hd) (Nat.le_of_eq (binB_end h))

theorem radixHist_spec (h : start ≤ en) (he : en ≤ a.length) :
    ∃ hist, radixHist a start en shift kf = .ok hist ∧ hist.length = 16 ∧
      ∀ d, d < 16 → hist.getD d 0 = cntD a start en shift kf d := by
  unfold radixHist
  obtain ⟨hist, h1, h2, h3⟩ := forRange_rule (lo := start) (hi := en)
    (s := List.replicate 16 0)
    (body := fun i ends => do
      let x ← rd a i
      let d := digit kf shift x
      let c ← rd ends d
      wr ends d (c + 1))
    (fun i (l : List Nat) => l.length = 16 ∧ ∀ d, d < 16 → l.getD d 0 = cntD a start i shift kf d)
    h ⟨by simp, by
      intro d hd
      have : (List.replicate 16 0).getD d 0 = 0 := by
        rw [List.getD, List.getElem?_replicate]; split <;> rfl
      rw [this]; simp [cntD]⟩
    (by
      rintro k l hk1 hk2 ⟨b1, b2⟩
      rw [rd_getD (0, 0) (by omega), ok_bind]
      have hdl := digit_lt kf shift (a.getD k (0, 0))
      simp only
      rw [rd_getD 0 (by omega), ok_bind, wr_ok _ (by omega)]
      refine ⟨_, rfl, by simpa using b1, ?_⟩
      intro d hd
      rw [getD_set (by omega)]
      have hI : Finset.Ico start (k + 1) = insert k (Finset.Ico start k) := by
        ext p; simp only [Finset.mem_Ico, Finset.mem_insert]; omega
      have hC : cntD a start (k + 1) shift kf d = cntD a start k shift kf d +
          if digit kf shift (ev a k) = d then 1 else 0 := by
        unfold cntD
        rw [hI, Finset.filter_insert]
        split
        · rw [Finset.card_insert_of_notMem (by simp)]
        · rfl
      rw [hC]
      change (if d = digit kf shift (ev a k) then l.getD (digit kf shift (ev a k)) 0 + 1
        else l.getD d 0) = _
      by_cases hd' : d = digit kf shift (ev a k)
      · rw [if_pos hd', if_pos hd'.symm, ← hd', b2 d hd]
      · rw [if_neg hd', if_neg (fun h => hd' h.symm), b2 d hd]; rfl)
  exact ⟨hist, h1, h2, h3⟩

theorem radixOffsets_spec {hist : List Nat} (hl : hist.length = 16)
    (hh : ∀ d, d < 16 → hist.getD d 0 = cntD a start en shift kf d) :
    ∃ starts ends, radixOffsets start hist = .ok (starts, ends) ∧ starts.length = 16 ∧
      ends.length = 16 ∧ ∀ d, d < 16 → starts.getD d 0 = binB a start en shift kf d ∧
        ends.getD d 0 = binB a start en shift kf (d + 1) := by
  unfold radixOffsets
  rw [wr_ok _ (by simp), ok_bind, rd_getD 0 (by omega), ok_bind, wr_ok _ (by omega), ok_bind]
  obtain ⟨⟨starts, ends⟩, h1, h2, h3, h4, h5⟩ := forRange_rule (lo := 1) (hi := 16)
    (s := ((List.replicate 16 0).set 0 start, hist.set 0 (hist.getD 0 0 + start)))
    (body := fun i (p : List Nat × List Nat) => do
      let prev ← rd p.2 (i - 1)
      let starts ← wr p.1 i prev
      let ei ← rd p.2 i
      let ends ← wr p.2 i (ei + prev)
      .ok (starts, ends))
    (fun i p => p.1.length = 16 ∧ p.2.length = 16 ∧
      (∀ d, d < i → p.1.getD d 0 = binB a start en shift kf d ∧
        p.2.getD d 0 = binB a start en shift kf (d + 1)) ∧
      ∀ d, i ≤ d → d < 16 → p.2.getD d 0 = cntD a start en shift kf d)
    (by decide)
    (by
      refine ⟨by simp, by simpa using hl, ?_, ?_⟩
      · intro d hd
        have : d = 0 := by omega
        subst this
        simp only
        rw [getD_set (by simp), getD_set (by omega), if_pos rfl, if_pos rfl, binB_zero, binB_succ,
          binB_zero, hh 0 (by decide)]
        exact ⟨rfl, Nat.add_comm _ _⟩
      · intro d h1 h2
        simp only
        rw [getD_set (by omega), if_neg (by omega)]
        exact hh d h2)
    (by
      rintro k ⟨p1, p2⟩ hk1 hk2 ⟨b1, b2, b3, b4⟩
      simp only at b1 b2 b3 b4 ⊢
      rw [rd_getD 0 (by omega), ok_bind, wr_ok _ (by omega), ok_bind, rd_getD 0 (by omega), ok_bind,
        wr_ok _ (by omega), ok_bind]
      refine ⟨_, rfl, by simpa using b1, by simpa using b2, ?_, ?_⟩
      · intro d hd
        simp only
        rw [getD_set (by omega), getD_set (by omega)]
        have hprev := (b3 (k - 1) (by omega)).2
        have hk' : k - 1 + 1 = k := by omega
        rw [hk'] at hprev
        by_cases hdk : d = k
        · rw [if_pos hdk, if_pos hdk, hdk, hprev, b4 k (Nat.le_refl _) hk2, binB_succ]
          exact ⟨rfl, Nat.add_comm _ _⟩
        · rw [if_neg hdk, if_neg hdk]
          exact b3 d (by omega)
      · intro d h1 h2
        simp only
        rw [getD_set (by omega), if_neg (by omega)]
        exact b4 d (by omega) h2)
  exact ⟨starts, ends, h1, h2, h3, h4⟩

/-- Invariant of the in-place permutation: `b` gives the bin boundaries. -/
structure FlagInv (a0 : Edges) (start en shift : Nat) (kf : Bool) (b : Nat → Nat) (i : Nat)
    (a : Edges) (starts : List Nat) : Prop where
  perm : PermOn start en a0 a
  len : starts.length = 16
  done : ∀ d, d < i → ∀ p, b d ≤ p → p < b (d + 1) → digit kf shift (ev a p) = d
  lo : ∀ d, i ≤ d → d < 16 → b d ≤ starts.getD d 0 ∧ starts.getD d 0 ≤ b (d + 1)
  part : ∀ d, i ≤ d → d < 16 → ∀ p, b d ≤ p → p < starts.getD d 0 → digit kf shift (ev a p) = d

/-- A bin that is entirely filled with its digit leaves no such digit elsewhere. -/
theorem full_bin {a0 a : Edges} (hp : PermOn start en a0 a) {d p : Nat}
    (hd : d < 16) (hse : start ≤ en)
    (hfull : ∀ p, binB a0 start en shift kf d ≤ p → p < binB a0 start en shift kf (d + 1) →
      digit kf shift (ev a p) = d)
    (h1 : start ≤ p) (h2 : p < en) (h3 : digit kf shift (ev a p) = d) :
    binB a0 start en shift kf d ≤ p ∧ p < binB a0 start en shift kf (d + 1) := by
  by_contra hn
  have hcard := hp.card (fun x => digit kf shift x = d)
  have hsub : insert p (Finset.Ico (binB a0 start en shift kf d) (binB a0 start en shift kf (d + 1)))
      ⊆ (Finset.Ico start en).filter (fun p => digit kf shift (ev a p) = d) := by
    intro q hq
    rw [Finset.mem_filter, Finset.mem_Ico]
    rcases Finset.mem_insert.1 hq with rfl | hq
    · exact ⟨⟨h1, h2⟩, h3⟩
    · rw [Finset.mem_Ico] at hq
      have := binB_ge (a := a0) (start := start) (en := en) (shift := shift) (kf := kf) d
      have := binB_le (a := a0) (shift := shift) (kf := kf) hse (d := d + 1) (by omega)
      exact ⟨by omega, hfull q hq.1 hq.2⟩
  have h4 := Finset.card_le_card hsub
  rw [Finset.card_insert_of_notMem (by rw [Finset.mem_Ico]; exact hn), Nat.card_Ico, hcard,
    binB_succ] at h4
  unfold cntD at h4
  omega

theorem sum_set {l e : List Nat} {k : Nat} (hl : l.length = 16) (hk : k < 16)
    (hlt : l.getD k 0 < e.getD k 0) :
    ∑ d ∈ Finset.range 16, (e.getD d 0 - (l.set k (l.getD k 0 + 1)).getD d 0) <
    ∑ d ∈ Finset.range 16, (e.getD d 0 - l.getD d 0) := by
  apply Finset.sum_lt_sum
  · intro d _
    rw [getD_set (by omega)]
    split
    · subst_vars; omega
    · exact Nat.le_refl _
  · refine ⟨k, Finset.mem_range.2 hk, ?_⟩
    rw [getD_set (by omega), if_pos rfl]
    omega

theorem radixBin_spec {a0 : Edges} (hse : start ≤ en) (he : en ≤ a0.length) {i : Nat} (hi : i < 16)
    {ends : List Nat} (hel : ends.length = 16)
    (hends : ∀ d, d < 16 → ends.getD d 0 = binB a0 start en shift kf (d + 1))
    {p : Edges × List Nat}
    (I : FlagInv a0 start en shift kf (binB a0 start en shift kf) i p.1 p.2) {fuel : Nat}
    (hfuel : (ends.getD i 0 - p.2.getD i 0) +
      ∑ d ∈ Finset.range 16, (ends.getD d 0 - p.2.getD d 0) < fuel) :
    ∃ p', radixBin kf shift fuel i ends p = .ok p' ∧
      FlagInv a0 start en shift kf (binB a0 start en shift kf) (i + 1) p'.1 p'.2 ∧
      ∑ d ∈ Finset.range 16, (ends.getD d 0 - p'.2.getD d 0) ≤
        ∑ d ∈ Finset.range 16, (ends.getD d 0 - p.2.getD d 0) := by
  obtain ⟨a, starts⟩ := p
  have hl := I.len
  have hle16 := fun d (hd : d ≤ 16) => binB_le (a := a0) (shift := shift) (kf := kf) hse hd
  have hge := fun d => binB_ge (a := a0) (start := start) (en := en) (shift := shift) (kf := kf) d
  have hmon := fun d d' (h : d ≤ d') =>
    binB_mono (a := a0) (start := start) (en := en) (shift := shift) (kf := kf) h
  generalize hb : binB a0 start en shift kf = b at *
  simp only at hl hfuel ⊢
  unfold radixBin
  simp only
  rw [rd_getD 0 (by omega), ok_bind, rd_getD 0 (by omega), ok_bind, hends i hi]
  have hlo := I.lo i (Nat.le_refl _) hi
  simp only at hlo
  obtain ⟨p', h1, h2, h3⟩ := loop_rule
    (body := fun (s : Nat × Edges × List Nat) =>
      let (j, a, starts) := s
      if j < b (i + 1) then do
        let x ← rd a j
        let k := digit kf shift x
        if k = i then .ok (.inl (j + 1, a, starts))
        else do
          let sk ← rd starts k
          let a ← swapE a j sk
          let starts ← wr starts k (sk + 1)
          .ok (.inl (j, a, starts))
      else .ok (.inr (a, starts)))
    (fun s => FlagInv a0 start en shift kf b i s.2.1 s.2.2 ∧ b i ≤ s.1 ∧ s.1 ≤ b (i + 1) ∧
      (∀ q, b i ≤ q → q < s.1 → digit kf shift (ev s.2.1 q) = i) ∧
      s.2.2.getD i 0 = starts.getD i 0 ∧ starts.getD i 0 ≤ s.1 ∧
      ∑ d ∈ Finset.range 16, (ends.getD d 0 - s.2.2.getD d 0) ≤
        ∑ d ∈ Finset.range 16, (ends.getD d 0 - starts.getD d 0))
    (fun r => FlagInv a0 start en shift kf b (i + 1) r.1 r.2 ∧
      ∑ d ∈ Finset.range 16, (ends.getD d 0 - r.2.getD d 0) ≤
        ∑ d ∈ Finset.range 16, (ends.getD d 0 - starts.getD d 0))
    (fun s => (b (i + 1) - s.1) + ∑ d ∈ Finset.range 16, (ends.getD d 0 - s.2.2.getD d 0))
    (by
      rintro ⟨j, a1, st⟩ ⟨J, c1, c2, c3, c4, c5, c6⟩
      simp only at J c1 c2 c3 c4 c5 c6 ⊢
      have hal : a1.length = a0.length := J.perm.1
      have hb16 := hle16 (i + 1) (by omega)
      have hbi := hge i
      by_cases hj : j < b (i + 1)
      swap
      · rw [if_neg hj]
        refine Or.inr ⟨_, rfl, ⟨J.perm, J.len, ?_, fun d h1 h2 => J.lo d (by omega) h2,
          fun d h1 h2 => J.part d (by omega) h2⟩, c6⟩
        intro d hd q h1 h2
        by_cases hdi : d = i
        · subst hdi
          exact c3 q h1 (by omega)
        · exact J.done d (by omega) q h1 h2
      rw [if_pos hj, rd_ev (by omega), ok_bind]
      left
      by_cases hk : digit kf shift (ev a1 j) = i
      · rw [if_pos hk]
        refine ⟨_, rfl, ⟨J, by simp only; omega, by simp only; omega, ?_, c4, by simp only; omega,
          c6⟩, by simp only; omega⟩
        intro q h1 h2
        simp only at h2 ⊢
        by_cases hq : q = j
        · rw [hq]; exact hk
        · exact c3 q h1 (by omega)
      rw [if_neg hk]
      have hk16 := digit_lt kf shift (ev a1 j)
      generalize hkd : digit kf shift (ev a1 j) = k at *
      have hki : i < k := by
        by_contra hn
        have hk' : k < i := by omega
        have := full_bin (shift := shift) (kf := kf) J.perm hk16 hse
          (by rw [hb]; exact J.done k hk') (p := j) (by omega) (by omega) hkd
        rw [hb] at this
        have := hmon (k + 1) i (by omega)
        omega
      have hlk := J.lo k (by omega) hk16
      have hmik := hmon (i + 1) k (by omega)
      have hsk : st.getD k 0 < b (k + 1) := by
        by_contra hn
        have := full_bin (shift := shift) (kf := kf) J.perm hk16 hse
          (by
            rw [hb]
            intro p h1 h2
            exact J.part k (by omega) hk16 p h1 (by omega)) (p := j) (by omega) (by omega) hkd
        rw [hb] at this
        omega
      have hb16k := hle16 (k + 1) (by omega)
      rw [rd_getD 0 (by rw [J.len]; exact hk16), ok_bind]
      obtain ⟨a2, d1, d2, d3⟩ := swapE_spec (a := a1) (i := j) (j := st.getD k 0) (by omega)
        (by omega)
      rw [d1, ok_bind, wr_ok _ (by rw [J.len]; exact hk16), ok_bind]
      have hdis : ∀ d, d ≠ i → d < 16 → ¬ (b d ≤ j ∧ j < b (d + 1)) := by
        intro d hd hd16
        rcases Nat.lt_or_gt_of_ne hd with h | h
        · have := hmon (d + 1) i (by omega); omega
        · have := hmon (i + 1) d (by omega); omega
      have hdisk : ∀ d, d ≠ k → d < 16 → ¬ (b d ≤ st.getD k 0 ∧ st.getD k 0 < b (d + 1)) := by
        intro d hd hd16
        rcases Nat.lt_or_gt_of_ne hd with h | h
        · have := hmon (d + 1) k (by omega); omega
        · have := hmon (k + 1) d (by omega); omega
      have e1 : ∀ q, q ≠ j → q ≠ st.getD k 0 → ev a2 q = ev a1 q := by
        intro q h1 h2; rw [d3, Equiv.swap_apply_of_ne_of_ne h1 h2]
      have e2 : ev a2 (st.getD k 0) = ev a1 j := by rw [d3, Equiv.swap_apply_right]
      refine ⟨_, rfl, ⟨⟨?_, ?_, ?_, ?_, ?_⟩, c1, c2, ?_, ?_, c5, ?_⟩, ?_⟩
      · exact J.perm.trans (swapE_permOn d2 d3 (by omega) (by have := hge k; omega))
      · simpa using J.len
      · intro d hd q h1 h2
        simp only
        rw [e1 q (by rintro rfl; exact hdis d (by omega) (by omega) ⟨h1, h2⟩)
          (by rintro rfl; exact hdisk d (by omega) (by omega) ⟨h1, h2⟩)]
        exact J.done d hd q h1 h2
      · intro d h1 h2
        simp only
        rw [getD_set (by rw [J.len]; exact hk16)]
        have := J.lo d h1 h2
        split
        · subst_vars; omega
        · exact this
      · intro d h1 h2 q h3 h4
        simp only at h4 ⊢
        rw [getD_set (by rw [J.len]; exact hk16)] at h4
        have hld := J.lo d h1 h2
        by_cases hdk : d = k
        · subst hdk
          rw [if_pos rfl] at h4
          by_cases hq : q = st.getD d 0
          · rw [hq, e2]; exact hkd
          · rw [e1 q (by rintro rfl; exact hdis d (by omega) h2 ⟨h3, by omega⟩) hq]
            exact J.part d h1 h2 q h3 (by omega)
        · rw [if_neg hdk] at h4
          by_cases hdi : d = i
          · subst hdi
            rw [e1 q (by omega) (by rintro rfl; exact hdisk d hdk h2 ⟨h3, by omega⟩)]
            exact J.part d h1 h2 q h3 h4
          · rw [e1 q (by rintro rfl; exact hdis d hdi h2 ⟨h3, by omega⟩)
              (by rintro rfl; exact hdisk d hdk h2 ⟨h3, by omega⟩)]
            exact J.part d h1 h2 q h3 h4
      · intro q h1 h2
        simp only at h2 ⊢
        rw [e1 q (by omega) (by omega)]
        exact c3 q h1 h2
      · simp only
        rw [getD_set (by rw [J.len]; exact hk16), if_neg (by omega)]
        exact c4
      · have := sum_set (e := ends) J.len hk16 (by rw [hends k hk16]; exact hsk)
        simp only
        omega
      · have := sum_set (e := ends) J.len hk16 (by rw [hends k hk16]; exact hsk)
        simp only
        omega)
    (s := (starts.getD i 0, a, starts)) (fuel := fuel)
    ⟨I, hlo.1, hlo.2, fun q h1 h2 => I.part i (Nat.le_refl _) hi q h1 h2, rfl, Nat.le_refl _,
      Nat.le_refl _⟩
    (by simp only; rw [← hends i hi]; exact hfuel)
  exact ⟨p', h1, h2, h3⟩

theorem radixPermute_spec (hse : start ≤ en) (he : en ≤ a.length) {starts ends : List Nat}
    (hsl : starts.length = 16) (hel : ends.length = 16)
    (h : ∀ d, d < 16 → starts.getD d 0 = binB a start en shift kf d ∧
        ends.getD d 0 = binB a start en shift kf (d + 1)) :
    ∃ a' st, radixPermute a start en shift kf starts ends = .ok (a', st) ∧ st.length = 16 ∧
      PermOn start en a a' ∧ ∀ d, d < 16 → ∀ p, binB a start en shift kf d ≤ p →
        p < binB a start en shift kf (d + 1) → digit kf shift (ev a' p) = d := by
  unfold radixPermute
  have hsum : ∀ n, n ≤ 16 → ∑ d ∈ Finset.range n, (ends.getD d 0 - starts.getD d 0) =
      binB a start en shift kf n - start := by
    intro n
    induction n with
    | zero => intro _; simp [binB_zero]
    | succ n ih =>
      intro hn
      rw [Finset.sum_range_succ, ih (by omega), (h n (by omega)).1, (h n (by omega)).2]
      have := binB_ge (a := a) (start := start) (en := en) (shift := shift) (kf := kf) n
      have := binB_mono (a := a) (start := start) (en := en) (shift := shift) (kf := kf)
        (show n ≤ n + 1 by omega)
      omega
  have hsum16 := hsum 16 (Nat.le_refl _)
  rw [binB_end hse] at hsum16
  obtain ⟨⟨a', st⟩, h1, h2, h3⟩ := forRange_rule (lo := 0) (hi := 16) (s := (a, starts))
    (body := fun i p => radixBin kf shift (2 * (en - start) + 1) i ends p)
    (fun i p => FlagInv a start en shift kf (binB a start en shift kf) i p.1 p.2 ∧
      ∑ d ∈ Finset.range 16, (ends.getD d 0 - p.2.getD d 0) ≤ en - start)
    (by decide)
    (by
      refine ⟨⟨PermOn.refl _ _ _, hsl, fun d hd => by omega, ?_, ?_⟩, by simp only; omega⟩
      · intro d _ hd
        rw [(h d hd).1]
        exact ⟨Nat.le_refl _, binB_mono (Nat.le_succ d)⟩
      · intro d _ hd p h1 h2
        rw [(h d hd).1] at h2
        omega)
    (by
      rintro k ⟨a1, st⟩ _ hk ⟨I, hs⟩
      have hk1 : ends.getD k 0 - st.getD k 0 ≤
          ∑ d ∈ Finset.range 16, (ends.getD d 0 - st.getD d 0) :=
        Finset.single_le_sum (f := fun d => ends.getD d 0 - st.getD d 0)
          (fun _ _ => Nat.zero_le _) (Finset.mem_range.2 hk)
      obtain ⟨p', b1, b2, b3⟩ := radixBin_spec hse he hk hel (fun d hd => (h d hd).2) I
        (fuel := 2 * (en - start) + 1) (by simp only at hs ⊢; omega)
      exact ⟨p', b1, b2, by simp only at hs b3; omega⟩)
  exact ⟨a', st, h1, h2.len, h2.perm, fun d hd => h2.done d hd⟩

theorem radixRestart_spec {starts ends : List Nat} (hsl : starts.length = 16)
    (hel : ends.length = 16) {b : Nat → Nat} (h0 : b 0 = start)
    (h : ∀ d, d < 16 → ends.getD d 0 = b (d + 1)) :
    ∃ st, radixRestart start starts ends = .ok st ∧ st.length = 16 ∧
      ∀ d, d < 16 → st.getD d 0 = b d := by
  unfold radixRestart
  rw [wr_ok _ (by omega), ok_bind]
  obtain ⟨st, h1, h2, h3⟩ := forRange_rule (lo := 1) (hi := 16) (s := starts.set 0 start)
    (body := fun i starts => do
      let e ← rd ends (i - 1)
      wr starts i e)
    (fun i (st : List Nat) => st.length = 16 ∧ ∀ d, d < i → st.getD d 0 = b d)
    (by decide)
    ⟨by simpa using hsl, by
      intro d hd
      rw [getD_set (by omega)]
      have : d = 0 := by omega
      subst this
      simp [h0]⟩
    (by
      rintro k st hk1 hk2 ⟨b1, b2⟩
      rw [rd_getD 0 (by omega), ok_bind, wr_ok _ (by omega)]
      refine ⟨_, rfl, by simpa using b1, ?_⟩
      intro d hd
      rw [getD_set (by omega)]
      split
      · subst_vars
        rw [h (d - 1) (by omega)]
        congr 1; omega
      · exact b2 d (by omega))
  exact ⟨st, h1, h2, h3⟩

/-- All entries of the range agree on everything above the current digit. -/
def RadixPre (a : Edges) (start en shift : Nat) (kf : Bool) : Prop :=
  ∀ p q, start ≤ p → p < en → start ≤ q → q < en →
    if kf then (ev a p).1 / 2 ^ (shift + 4) = (ev a q).1 / 2 ^ (shift + 4)
    else (ev a p).1 = (ev a q).1 ∧ (ev a p).2 / 2 ^ (shift + 4) = (ev a q).2 / 2 ^ (shift + 4)

theorem RadixPre.perm {a' : Edges} (h : RadixPre a start en shift kf) (hp : PermOn start en a a') :
    RadixPre a' start en shift kf := by
  intro p q h1 h2 h3 h4
  obtain ⟨p', h5, h6⟩ := hp.inside ⟨h1, h2⟩
  obtain ⟨q', h7, h8⟩ := hp.inside ⟨h3, h4⟩
  rw [h6, h8]
  exact h p' q' h5.1 h5.2 h7.1 h7.2

theorem div_digit (x shift : Nat) : x / 2 ^ shift = 16 * (x / 2 ^ (shift + 4)) + (x >>> shift) % 16 := by
  rw [Nat.shiftRight_eq_div_pow, Nat.pow_add, ← Nat.div_div_eq_div_mul]
  have : (2 : Nat) ^ 4 = 16 := rfl
  rw [this]
  omega

/-- The order of two entries that agree above the digit is decided by the digit. -/
theorem digit_lex {x y : Nat × Nat}
    (h : if kf then x.1 / 2 ^ (shift + 4) = y.1 / 2 ^ (shift + 4)
      else x.1 = y.1 ∧ x.2 / 2 ^ (shift + 4) = y.2 / 2 ^ (shift + 4))
    (hd : digit kf shift x < digit kf shift y) : lexLe x y := by
  have key : ∀ u v : Nat, u / 2 ^ (shift + 4) = v / 2 ^ (shift + 4) →
      (u >>> shift) % 16 < (v >>> shift) % 16 → u < v := by
    intro u v h1 h2
    have e1 := div_digit u shift
    have e2 := div_digit v shift
    have : u / 2 ^ shift < v / 2 ^ shift := by rw [e1, e2, h1]; omega
    by_contra hn
    have := Nat.div_le_div_right (c := 2 ^ shift) (Nat.le_of_not_lt hn)
    omega
  unfold digit at hd
  unfold lexLe
  cases kf with
  | true =>
    simp only [if_true] at h hd
    exact Or.inl (key _ _ h hd)
  | false =>
    simp only [Bool.false_eq_true, if_false] at h hd
    exact Or.inr ⟨h.1, Nat.le_of_lt (key _ _ h.2 hd)⟩

/-- Entries with equal digits agree above the next one. -/
theorem digit_eq {x y : Nat × Nat}
    (h : if kf then x.1 / 2 ^ (shift + 4) = y.1 / 2 ^ (shift + 4)
      else x.1 = y.1 ∧ x.2 / 2 ^ (shift + 4) = y.2 / 2 ^ (shift + 4))
    (hd : digit kf shift x = digit kf shift y) :
    if kf then x.1 / 2 ^ shift = y.1 / 2 ^ shift
    else x.1 = y.1 ∧ x.2 / 2 ^ shift = y.2 / 2 ^ shift := by
  unfold digit at hd
  cases kf with
  | true =>
    simp only [if_true] at h hd ⊢
    rw [div_digit, div_digit y.1, h, hd]
  | false =>
    simp only [Bool.false_eq_true, if_false] at h hd ⊢
    exact ⟨h.1, by rw [div_digit, div_digit y.2, h.2, hd]⟩

/-- Levels of recursion that remain. -/
def levels (shift : Nat) (kf : Bool) (maxShift : Nat) : Nat :=
  shift / 4 + 1 + if kf then maxShift / 4 + 1 else 0

theorem radixSort_spec {maxShift : Nat} (hms : maxShift < 64) (hms4 : maxShift % 4 = 0) :
    ∀ (fuel : Nat) (a : Edges) (start en shift : Nat) (kf : Bool), start ≤ en → en ≤ a.length →
      shift ≤ maxShift → shift % 4 = 0 → levels shift kf maxShift ≤ fuel →
      (∀ p, start ≤ p → p < en → (ev a p).2 < 2 ^ (maxShift + 4)) →
      RadixPre a start en shift kf →
      ∃ a', radixSort fuel a start en shift kf maxShift = .ok a' ∧ PermOn start en a a' ∧
        SortedOn start en a' := by
  intro fuel
  induction fuel with
  | zero => intro a start en shift kf _ _ _ _ h; unfold levels at h; omega
  | succ fuel ih =>
    intro a start en shift kf hse he hsm hs4 hlev hkey hpre
    unfold radixSort
    rw [if_neg (by omega)]
    obtain ⟨hist, a1, a2, a3⟩ := radixHist_spec (shift := shift) (kf := kf) hse he
    rw [a1, ok_bind]
    obtain ⟨starts, ends, b1, b2, b3, b4⟩ := radixOffsets_spec a2 a3
    rw [b1, ok_bind]
    simp only
    obtain ⟨a', st, c1, c2, c3, c4⟩ := radixPermute_spec hse he b2 b3 b4
    rw [c1, ok_bind]
    simp only
    have hpre' := hpre.perm c3
    have hb0 := binB_zero (a := a) (start := start) (en := en) (shift := shift) (kf := kf)
    have hb16 := binB_end (a := a) (start := start) (en := en) (shift := shift) (kf := kf) hse
    have hmon := fun d d' (h : d ≤ d') =>
      binB_mono (a := a) (start := start) (en := en) (shift := shift) (kf := kf) h
    have hends := fun d hd => (b4 d hd).2
    generalize hb : binB a start en shift kf = b at *
    have hbin : ∀ p, start ≤ p → p < en → ∃ d, d < 16 ∧ b d ≤ p ∧ p < b (d + 1) := by
      intro p h1 h2
      have : ∀ n, n ≤ 16 → p < b n → ∃ d, d < n ∧ b d ≤ p ∧ p < b (d + 1) := by
        intro n
        induction n with
        | zero => intro _ h; rw [hb0] at h; omega
        | succ n ihn =>
          intro hn h
          by_cases hlt : p < b n
          · obtain ⟨d, h3, h4⟩ := ihn (by omega) hlt
            exact ⟨d, by omega, h4⟩
          · exact ⟨n, by omega, by omega, h⟩
      exact this 16 (Nat.le_refl _) (by rw [hb16]; exact h2)
    have cross : ∀ a2, (∀ d, d < 16 → ∀ p, b d ≤ p → p < b (d + 1) →
        digit kf shift (ev a2 p) = d) → RadixPre a2 start en shift kf →
        (∀ d, d < 16 → SortedOn (b d) (b (d + 1)) a2) → SortedOn start en a2 := by
      intro a2 h1 h2 h3 p q h4 h5 h6
      obtain ⟨d, k1, k2, k3⟩ := hbin p h4 (by omega)
      obtain ⟨d', l1, l2, l3⟩ := hbin q (by omega) h6
      by_cases hdd : d = d'
      · subst hdd; exact h3 d k1 p q k2 h5 l3
      · have hlt : d < d' := by
          by_contra hn
          have := hmon (d' + 1) d (by omega)
          omega
        apply digit_lex (h2 p q h4 (by omega) (by omega) h6)
        rw [h1 d k1 p k2 k3, h1 d' l1 q l2 l3]
        exact hlt
    by_cases hfin : shift = 0 ∧ kf = false
    · rw [if_pos hfin]
      refine ⟨a', rfl, c3, cross a' c4 hpre' ?_⟩
      intro d hd p q h1 h2 h3
      have hbd := hmon 0 d (by omega)
      have hbd' := hmon (d + 1) 16 (by omega)
      have := digit_eq (hpre' p q (by omega) (by omega) (by omega) (by omega))
        (by rw [c4 d hd p h1 (by omega), c4 d hd q (by omega) h3])
      rw [hfin.2, hfin.1] at this
      simp only [Bool.false_eq_true, if_false, Nat.pow_zero, Nat.div_one] at this
      exact Or.inr ⟨this.1, Nat.le_of_eq this.2⟩
    rw [if_neg hfin]
    obtain ⟨st2, d1, d2, d3⟩ := radixRestart_spec c2 b3 hb0 hends
    rw [d1, ok_bind]
    obtain ⟨ar, e1, e2, e3, e4⟩ := forRange_rule (lo := 0) (hi := 16) (s := a')
      (body := fun i a => do
        let s ← rd st2 i
        let e ← rd ends i
        if s ≥ e then .ok a
        else if e - s ≤ 32 then insertionSort a s e
        else radixSort fuel a s e (if shift = 0 then maxShift else usub shift 4)
                (if shift = 0 then false else kf) maxShift)
      (fun i x => PermOn start en a x ∧
        (∀ d, d < 16 → ∀ p, b d ≤ p → p < b (d + 1) → digit kf shift (ev x p) = d) ∧
        ∀ d, d < i → SortedOn (b d) (b (d + 1)) x)
      (by decide) ⟨c3, c4, fun d hd => by omega⟩
      (by
        rintro k x _ hk ⟨f1, f2, f3⟩
        rw [rd_getD 0 (by omega), ok_bind, rd_getD 0 (by omega), ok_bind, d3 k hk, hends k hk]
        have hbk := hmon 0 k (by omega)
        have hbk' := hmon (k + 1) 16 (by omega)
        have hxl : x.length = a.length := f1.1
        have fin : ∀ y, PermOn (b k) (b (k + 1)) x y → SortedOn (b k) (b (k + 1)) y →
            PermOn start en a y ∧
            (∀ d, d < 16 → ∀ p, b d ≤ p → p < b (d + 1) → digit kf shift (ev y p) = d) ∧
            ∀ d, d < k + 1 → SortedOn (b d) (b (d + 1)) y := by
          intro y g1 g2
          refine ⟨f1.trans (g1.mono (by omega) (by omega)), ?_, ?_⟩
          · intro d hd p h1 h2
            by_cases hdk : d = k
            · subst hdk
              obtain ⟨q, h3, h4⟩ := g1.inside ⟨h1, h2⟩
              rw [h4]; exact f2 d hd q h3.1 h3.2
            · have hnin : ¬ (b k ≤ p ∧ p < b (k + 1)) := by
                rcases Nat.lt_or_gt_of_ne hdk with h | h
                · have := hmon (d + 1) k (by omega); omega
                · have := hmon (k + 1) d (by omega); omega
              rw [g1.outside hnin]; exact f2 d hd p h1 h2
          · intro d hd p q h1 h2 h3
            by_cases hdk : d = k
            · subst hdk; exact g2 p q h1 h2 h3
            · have := hmon (d + 1) k (by omega)
              rw [g1.outside (by omega), g1.outside (by omega)]
              exact f3 d (by omega) p q h1 h2 h3
        by_cases hge : b k ≥ b (k + 1)
        · rw [if_pos hge]
          exact ⟨x, rfl, fin x (PermOn.refl _ _ _) (by intro p q h1 h2 h3; omega)⟩
        rw [if_neg hge]
        by_cases h32 : b (k + 1) - b k ≤ 32
        · rw [if_pos h32]
          obtain ⟨y, g1, g2, g3⟩ := insertionSort_spec (s := b k) (e := b (k + 1)) (a := x)
            (by omega) (by omega)
          exact ⟨y, g1, fin y g2 g3⟩
        rw [if_neg h32]
        have hprex := hpre.perm f1
        obtain ⟨y, g1, g2, g3⟩ := ih x (b k) (b (k + 1))
          (if shift = 0 then maxShift else usub shift 4) (if shift = 0 then false else kf)
          (by omega) (by omega)
          (by
            split
            · exact Nat.le_refl _
            · rw [usub_eq (by omega) (by omega)]; omega)
          (by
            split
            · exact hms4
            · rw [usub_eq (by omega) (by omega)]; omega)
          (by
            unfold levels at hlev ⊢
            by_cases h0 : shift = 0
            · have hkt : kf = true := by
                cases kf with
                | true => rfl
                | false => exact absurd ⟨h0, rfl⟩ hfin
              rw [if_pos h0, if_pos h0]
              rw [hkt, h0] at hlev
              simp only [if_true, Bool.false_eq_true, if_false] at hlev ⊢
              omega
            · rw [if_neg h0, if_neg h0, usub_eq (by omega) (by omega)]
              omega)
          (by
            intro p h1 h2
            obtain ⟨q, h3, h4⟩ := f1.inside (p := p) ⟨by omega, by omega⟩
            rw [h4]; exact hkey q h3.1 h3.2)
          (by
            intro p q h1 h2 h3 h4
            have := digit_eq (hprex p q (by omega) (by omega) (by omega) (by omega))
              (by rw [f2 k hk p h1 h2, f2 k hk q h3 h4])
            by_cases h0 : shift = 0
            · have hkt : kf = true := by
                cases kf with
                | true => rfl
                | false => exact absurd ⟨h0, rfl⟩ hfin
              rw [if_pos h0, if_pos h0]
              rw [hkt, h0] at this
              simp only [if_true, Nat.pow_zero, Nat.div_one] at this
              simp only [Bool.false_eq_true, if_false]
              refine ⟨this, ?_⟩
              have hz : ∀ p, b k ≤ p → p < b (k + 1) → (ev x p).2 / 2 ^ (maxShift + 4) = 0 := by
                intro p h1 h2
                obtain ⟨q, h3, h4⟩ := f1.inside (p := p) ⟨by omega, by omega⟩
                rw [h4]; exact Nat.div_eq_of_lt (hkey q h3.1 h3.2)
              rw [hz p h1 h2, hz q h3 h4]
            · rw [if_neg h0, if_neg h0, usub_eq (by omega) (by omega)]
              have : shift - 4 + 4 = shift := by omega
              rw [this]
              assumption)
        exact ⟨y, g1, fin y g2 g3⟩)
    exact ⟨ar, e1, e2, cross ar e3 (hpre.perm e2) e4⟩

end CM
