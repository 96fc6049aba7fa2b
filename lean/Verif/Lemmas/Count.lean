import Verif.Lemmas.Popcount
import Mathlib.Data.Nat.Count

/-! # `count` and `get_subset` (`gbits.cpp`) -/

namespace CM

theorem cpopNatRec_count {w : Nat} (x : BitVec w) (n acc : Nat) :
    x.cpopNatRec n acc = acc + Nat.count (fun k => x.getLsbD k = true) n := by
  induction n generalizing acc with
  | zero => simp [BitVec.cpopNatRec]
  | succ n ih =>
    rw [BitVec.cpopNatRec_succ, ih, Nat.count_succ]
    cases x.getLsbD n <;> simp; omega

theorem cpop_count (w : Word) :
    w.cpop.toNat = Nat.count (fun k => w.getMsbD k = true) 64 := by
  rw [BitVec.toNat_cpop, cpopNatRec_count, Nat.zero_add, Nat.count_eq_card_filter_range,
    Nat.count_eq_card_filter_range]
  apply Finset.card_bij (fun k _ => 63 - k)
  · intro a ha
    simp only [Finset.mem_filter, Finset.mem_range] at ha ⊢
    refine ⟨by omega, ?_⟩
    rw [BitVec.getMsbD_eq_getLsbD]
    have : 64 - 1 - (63 - a) = a := by omega
    rw [this, ha.2]; simp; omega
  · intro a ha b hb h
    simp only [Finset.mem_filter, Finset.mem_range] at ha hb
    omega
  · intro b hb
    simp only [Finset.mem_filter, Finset.mem_range] at hb
    refine ⟨63 - b, ?_, by omega⟩
    simp only [Finset.mem_filter, Finset.mem_range]
    refine ⟨by omega, ?_⟩
    have := hb.2
    rw [BitVec.getMsbD_eq_getLsbD] at this
    have h2 : 64 - 1 - b = 63 - b := by omega
    rw [h2] at this
    simpa [hb.1] using this

theorem bitcount_count (m : Mem) (i : Nat) :
    bitcount (m.getD i 0#64) = Nat.count (fun k => bitAt m (64 * i + k) = true) 64 := by
  rw [bitcount_eq, cpop_count, Nat.count_eq_card_filter_range, Nat.count_eq_card_filter_range]
  congr 1
  apply Finset.filter_congr
  intro k hk
  rw [bitAt_word (Finset.mem_range.1 hk)]

theorem bset_card (m : Mem) (b : GBits) :
    (bset m b).card = Nat.count (fun k => bitAt m (64 * b.off + k) = true) b.len := by
  rw [Nat.count_eq_card_filter_range]; rfl

theorem GBits.count_spec (b : GBits) (m : Mem) (hlen : 0 < b.len)
    (hin : b.off + dlen b.len ≤ m.length) :
    ∃ m', b.count m = .ok (m', (bset m b).card) ∧ m'.length = m.length ∧
      ∀ a, bitAt m' a = (if 64 * b.off + b.len ≤ a ∧ a < 64 * (b.off + dlen b.len)
        then false else bitAt m a) := by
  have hd := dlen_pos hlen
  have h1 : b.off + (dlen b.len - 1) < m.length := by omega
  have hdl := @dlen_le b.len
  have hdl2 := @dlen_lt b.len
  generalize hd' : dlen b.len = d at *
  let m' : Mem := m.set (b.off + (d - 1)) ((m.getD (b.off + (d - 1)) 0#64) &&& padCover b.len)
  have hbits : ∀ a, bitAt m' a = (if 64 * b.off + b.len ≤ a ∧ a < 64 * (b.off + d)
        then false else bitAt m a) := by
    intro a
    show bitAt (m.set _ _) a = _
    rw [bitAt_set h1]
    by_cases he : a / 64 = b.off + (d - 1)
    · rw [if_pos he, BitVec.getMsbD_and, padCover_bit]
      have hb : (m.getD (b.off + (d - 1)) 0#64).getMsbD (a % 64) = bitAt m a := by
        unfold bitAt; rw [he]
      rw [hb]
      by_cases h2 : 64 * b.off + b.len ≤ a ∧ a < 64 * (b.off + d)
      · rw [if_pos h2]
        have : ¬ a % 64 < (if b.len % 64 = 0 then 64 else b.len % 64) := by
          split <;> omega
        simp [this]
      · rw [if_neg h2]
        have : a % 64 < (if b.len % 64 = 0 then 64 else b.len % 64) := by
          split <;> omega
        simp [this]
    · rw [if_neg he, if_neg (by omega)]
  have hl : m'.length = m.length := by simp [m']
  refine ⟨m', ?_, hl, hbits⟩
  obtain ⟨s, hs1, hs2⟩ := forRange_rule (lo := 0) (hi := d) (s := 0)
    (body := fun i s => do
      let w ← rd m' (b.off + i)
      .ok (s + bitcount w))
    (fun i s => s = Nat.count (fun k => bitAt m' (64 * b.off + k) = true) (64 * i))
    (Nat.zero_le _) (by simp)
    (by
      rintro k s _ hk rfl
      have hin : b.off + k < m'.length := by omega
      simp only [rd_getD 0#64 hin, ok_bind]
      refine ⟨_, rfl, ?_⟩
      have : 64 * (k + 1) = 64 * k + 64 := by omega
      rw [this, Nat.count_add, bitcount_count]
      congr 1
      congr 1
      funext j
      have : 64 * (b.off + k) + j = 64 * b.off + (64 * k + j) := by omega
      rw [this])
  have hsum : s = (bset m b).card := by
    rw [hs2, bset_card]
    have : 64 * d = b.len + (64 * d - b.len) := by omega
    rw [this, Nat.count_add]
    have hz : Nat.count (fun k => bitAt m' (64 * b.off + (b.len + k)) = true)
        (64 * d - b.len) = 0 := by
      rw [Nat.count_eq_card_filter_range, Finset.card_eq_zero, Finset.filter_eq_empty_iff]
      intro x hx
      simp only [Finset.mem_range] at hx
      rw [hbits, if_pos (by omega)]; simp
    rw [hz, Nat.add_zero, Nat.count_eq_card_filter_range, Nat.count_eq_card_filter_range]
    congr 1
    apply Finset.filter_congr
    intro x hx
    simp only [Finset.mem_range] at hx
    rw [hbits, if_neg (by omega)]
  unfold GBits.count
  simp only [hd']
  rw [if_neg (by omega)]
  rw [rd_getD 0#64 h1, ok_bind, wr_ok _ h1, ok_bind]
  show (forRange 0 d _ 0 >>= _) = _
  rw [show (m.set (b.off + (d - 1)) ((m.getD (b.off + (d - 1)) 0#64) &&& padCover b.len)) = m'
    from rfl, hs1, ok_bind, hsum]

/-- The elements of `el[base ..]` at the set positions, in increasing position order. -/
def pick (el : List Nat) (base : Nat) (m : Mem) (b : GBits) : List Nat :=
  ((List.range b.len).filter fun i => bitAt m (64 * b.off + i)).map fun i => el.getD (base + i) 0

theorem bset_card_list (m : Mem) (b : GBits) :
    (bset m b).card = ((List.range b.len).filter fun i => bitAt m (64 * b.off + i)).length := by
  rw [bset_card, Nat.count, List.countP_eq_length_filter]
  congr 1
  apply List.filter_congr
  intro x _
  simp

theorem pick_length (el : List Nat) (base : Nat) (m : Mem) (b : GBits) :
    (pick el base m b).length = (bset m b).card := by
  rw [bset_card_list]; simp [pick]

theorem GBits.getSubset_spec (b : GBits) (el : List Nat) (base : Nat) (m : Mem)
    (hlen : 0 < b.len) (hin : b.off + dlen b.len ≤ m.length)
    (hel : base + b.len ≤ el.length) :
    ∃ m', b.getSubset el base m = .ok (m', pick el base m b) ∧ m'.length = m.length ∧
      ∀ a, bitAt m' a = (if 64 * b.off + b.len ≤ a ∧ a < 64 * (b.off + dlen b.len)
        then false else bitAt m a) := by
  obtain ⟨m', h1, h2, h3⟩ := b.count_spec m hlen hin
  refine ⟨m', ?_, h2, h3⟩
  unfold GBits.getSubset
  rw [h1, ok_bind]
  simp only []
  let f : Nat → List Nat := fun n =>
    ((List.range n).filter fun i => bitAt m (64 * b.off + i)).map fun i => el.getD (base + i) 0
  have hf : ∀ n, n ≤ b.len → (f n).length ≤ (bset m b).card := by
    intro n hn
    rw [← pick_length el base]
    simp only [pick, f, List.length_map]
    apply List.Sublist.length_le
    apply List.Sublist.filter
    have : b.len = n + (b.len - n) := by omega
    rw [this, List.range_add]
    exact List.sublist_append_left _ _
  have hsucc : ∀ n, f (n + 1) = f n ++
      (if bitAt m (64 * b.off + n) then [el.getD (base + n) 0] else []) := by
    intro n
    simp only [f, List.range_succ, List.filter_append, List.map_append]
    congr 1
    cases h : bitAt m (64 * b.off + n) <;> simp [h]
  obtain ⟨⟨ans, c⟩, hs1, hs2, hs3⟩ := forRange_rule (lo := 0) (hi := b.len)
    (s := (List.replicate (bset m b).card 0, 0))
    (body := fun i (p : List Nat × Nat) => do
      if ← b.test m' i then
        let x ← rd el (base + i)
        let a ← wr p.1 p.2 x
        .ok (a, p.2 + 1)
      else .ok p)
    (fun i p => p.2 = (f i).length ∧
      p.1 = f i ++ List.replicate ((bset m b).card - (f i).length) 0)
    (Nat.zero_le _) (by simp [f])
    (by
      rintro k ⟨a, c⟩ _ hk ⟨h4, h5⟩
      simp only at h4 h5
      have hkin : b.off + k / 64 < m'.length := by have := div_lt_dlen hk; omega
      have ht := b.test_spec m' k hkin
      rw [h3, if_neg (by omega)] at ht
      simp only [ht, ok_bind]
      have hs := hsucc k
      have hle := hf (k + 1) hk
      cases hb : bitAt m (64 * b.off + k) with
      | false =>
        rw [hb] at hs
        simp only [Bool.false_eq_true, if_false, List.append_nil] at hs
        exact ⟨_, rfl, by simpa [hs] using h4, by simpa [hs] using h5⟩
      | true =>
        rw [hb] at hs
        simp only [if_true] at hs
        rw [hs, List.length_append, List.length_singleton] at hle
        have h6 : c < a.length := by rw [h4, h5]; simp; omega
        simp only [if_true]
        rw [rd_getD 0 (by omega), ok_bind, wr_ok _ h6, ok_bind]
        refine ⟨_, rfl, ?_, ?_⟩
        · simp [hs, h4]
        · simp only [hs, List.length_append, List.length_singleton]
          subst h4 h5
          have : (bset m b).card - (f k).length
              = ((bset m b).card - ((f k).length + 1)) + 1 := by omega
          rw [this, List.replicate_succ]
          simp)
  rw [hs1, ok_bind]
  simp only
  have hfl : f b.len = pick el base m b := rfl
  have : (bset m b).card - (f b.len).length = 0 := by
    rw [hfl, pick_length]; omega
  simp only at hs3
  rw [hs3, this, hfl]; simp

end CM
