import Verif.Lemmas.Basic
import Verif.Model.Bits
import Mathlib.Data.Finset.Card
import Mathlib.Data.Finset.Range
import Mathlib.Order.Interval.Finset.Nat

/-! # Word-level operations as operations on bit addresses -/

namespace CM

/-- Bit number `a` of the buffer, counting from the most significant bit of word 0. -/
def bitAt (m : Mem) (a : Nat) : Bool := (m.getD (a / 64) 0#64).getMsbD (a % 64)

theorem bitAt_oob {m : Mem} {a : Nat} (h : 64 * m.length ≤ a) : bitAt m a = false := by
  unfold bitAt
  have : m.length ≤ a / 64 := by omega
  rw [List.getD_eq_getElem?_getD, List.getElem?_eq_none this]
  simp

theorem msb_shift (i : Nat) (hi : i < 64) (k : Nat) :
    (MSB_64 >>> i).getMsbD k = decide (k = i) := by
  have h : ∀ j, MSB_64.getMsbD j = decide (j = 0) := by
    intro j
    by_cases hj : j < 64
    · revert hj; revert j; decide
    · rw [BitVec.getMsbD_of_ge _ _ (by omega)]
      simp; omega
  rw [BitVec.getMsbD_ushiftRight]
  by_cases hk : k < i
  · simp [hk]; omega
  · simp only [hk, h]
    by_cases h1 : k < 64
    · simp [h1]
      constructor <;> intro <;> omega
    · simp [h1]; omega

theorem allones_shift (i : Nat) (hi : i < 64) (k : Nat) :
    (ALL_ONES >>> i).getMsbD k = (decide (i ≤ k) && decide (k < 64)) := by
  have h : ∀ j, ALL_ONES.getMsbD j = decide (j < 64) := by
    intro j
    by_cases hj : j < 64
    · revert hj; revert j; decide
    · rw [BitVec.getMsbD_of_ge _ _ (by omega)]
      simp; omega
  rw [BitVec.getMsbD_ushiftRight]
  by_cases hk : k < i
  · simp [hk]
  · by_cases h1 : k < 64
    · simp [hk, h, h1]; omega
    · simp [hk, h, h1]

theorem padCover_bit (n k : Nat) :
    (padCover n).getMsbD k = decide (k < (if n % 64 = 0 then 64 else n % 64)) := by
  unfold padCover
  have h : ∀ j, ALL_ONES.getMsbD j = decide (j < 64) := by
    intro j
    by_cases hj : j < 64
    · revert hj; revert j; decide
    · rw [BitVec.getMsbD_of_ge _ _ (by omega)]
      simp; omega
  rw [BitVec.getMsbD_shiftLeft, h]
  split
  · rename_i h0; simp [h0]
  · rename_i h0
    have : (64 - n % 64) % 64 = 64 - n % 64 := by omega
    rw [this]
    simp; omega

theorem word_ne_zero {w : Word} : w ≠ 0#64 ↔ ∃ k, k < 64 ∧ w.getMsbD k = true := by
  constructor
  · intro h
    by_contra hc
    apply h
    apply BitVec.eq_of_getMsbD_eq
    intro i hi
    simp only [not_exists, not_and] at hc
    simpa using hc i hi
  · rintro ⟨k, _, h⟩ rfl
    simp at h

/-- The bits of memory after writing one word. -/
theorem bitAt_set {m : Mem} {i : Nat} (h : i < m.length) (w : Word) (a : Nat) :
    bitAt (m.set i w) a = if a / 64 = i then w.getMsbD (a % 64) else bitAt m a := by
  unfold bitAt
  rw [List.getD_eq_getElem?_getD, List.getD_eq_getElem?_getD, List.getElem?_set]
  by_cases hi : i = a / 64
  · subst hi; simp [h]
  · have : ¬ a / 64 = i := fun h => hi h.symm
    simp [hi, this]

theorem bitAt_word {m : Mem} {i k : Nat} (hk : k < 64) :
    bitAt m (64 * i + k) = (m.getD i 0#64).getMsbD k := by
  unfold bitAt
  have h1 : (64 * i + k) / 64 = i := by omega
  have h2 : (64 * i + k) % 64 = k := by omega
  rw [h1, h2]

theorem mem_ext {m m' : Mem} (hl : m.length = m'.length)
    (h : ∀ a, bitAt m a = bitAt m' a) : m = m' := by
  apply List.ext_getElem hl
  intro i h1 h2
  apply BitVec.eq_of_getMsbD_eq
  intro k hk
  have := h (64 * i + k)
  rw [bitAt_word hk, bitAt_word hk] at this
  simpa [List.getD_eq_getElem?_getD, h1, h2] using this

theorem GBits.set_spec (b : GBits) (m : Mem) (i : Nat) (h : b.off + i / 64 < m.length) :
    ∃ m', b.set m i = .ok m' ∧ m'.length = m.length ∧
      ∀ a, bitAt m' a = (decide (a = 64 * b.off + i) || bitAt m a) := by
  refine ⟨m.set (b.off + i / 64) (m.getD (b.off + i / 64) 0#64 ||| (MSB_64 >>> (i % 64))), ?_, ?_, ?_⟩
  · unfold GBits.set
    rw [rd_getD 0#64 h, ok_bind, wr_ok _ h]
  · simp
  · intro a
    rw [bitAt_set h]
    split
    · rename_i he
      rw [BitVec.getMsbD_or, msb_shift _ (Nat.mod_lt _ (by decide)), Bool.or_comm]
      congr 1
      · apply decide_eq_decide.2
        constructor <;> intro <;> omega
      · unfold bitAt; rw [he]
    · rename_i he
      have : ¬ a = 64 * b.off + i := by omega
      simp [this]

theorem GBits.reset_spec (b : GBits) (m : Mem) (i : Nat) (h : b.off + i / 64 < m.length) :
    ∃ m', b.reset m i = .ok m' ∧ m'.length = m.length ∧
      ∀ a, bitAt m' a = (!decide (a = 64 * b.off + i) && bitAt m a) := by
  refine ⟨m.set (b.off + i / 64) (m.getD (b.off + i / 64) 0#64 &&& ~~~ (MSB_64 >>> (i % 64))), ?_, ?_, ?_⟩
  · unfold GBits.reset
    rw [rd_getD 0#64 h, ok_bind, wr_ok _ h]
  · simp
  · intro a
    rw [bitAt_set h]
    split
    · rename_i he
      rw [BitVec.getMsbD_and, BitVec.getMsbD_not, msb_shift _ (Nat.mod_lt _ (by decide)),
        Bool.and_comm]
      congr 1
      · have h1 : a % 64 < 64 := Nat.mod_lt _ (by decide)
        simp only [h1, decide_true, Bool.true_and]
        congr 1
        apply decide_eq_decide.2
        constructor <;> intro <;> omega
      · unfold bitAt; rw [he]
    · rename_i he
      have : ¬ a = 64 * b.off + i := by omega
      simp [this]

theorem GBits.toggle_spec (b : GBits) (m : Mem) (i : Nat) (h : b.off + i / 64 < m.length) :
    ∃ m', b.toggle m i = .ok m' ∧ m'.length = m.length ∧
      ∀ a, bitAt m' a = (if a = 64 * b.off + i then !bitAt m a else bitAt m a) := by
  refine ⟨m.set (b.off + i / 64) (m.getD (b.off + i / 64) 0#64 ^^^ (MSB_64 >>> (i % 64))), ?_, ?_, ?_⟩
  · unfold GBits.toggle
    rw [rd_getD 0#64 h, ok_bind, wr_ok _ h]
  · simp
  · intro a
    rw [bitAt_set h]
    split
    · rename_i he
      rw [BitVec.getMsbD_xor, msb_shift _ (Nat.mod_lt _ (by decide))]
      have hb : bitAt m a = (m.getD (b.off + i / 64) 0#64).getMsbD (a % 64) := by
        unfold bitAt; rw [he]
      rw [← hb]
      by_cases h1 : a = 64 * b.off + i
      · have : a % 64 = i % 64 := by omega
        simp [h1]
      · have : ¬ a % 64 = i % 64 := by omega
        simp [h1, this]
    · rename_i he
      have : ¬ a = 64 * b.off + i := by omega
      simp [this]

theorem GBits.test_spec (b : GBits) (m : Mem) (i : Nat) (h : b.off + i / 64 < m.length) :
    b.test m i = .ok (bitAt m (64 * b.off + i)) := by
  unfold GBits.test
  rw [rd_getD 0#64 h, ok_bind]
  congr 1
  have h1 : (64 * b.off + i) / 64 = b.off + i / 64 := by omega
  have h2 : (64 * b.off + i) % 64 = i % 64 := by omega
  unfold bitAt
  rw [h1, h2]
  generalize m.getD (b.off + i / 64) 0#64 = w
  have hk : i % 64 < 64 := Nat.mod_lt _ (by decide)
  have hand : ∀ k, (w &&& MSB_64 >>> (i % 64)).getMsbD k
      = (w.getMsbD k && decide (k = i % 64)) := by
    intro k; rw [BitVec.getMsbD_and, msb_shift _ hk]
  cases hc : w.getMsbD (i % 64) with
  | true =>
    have : (w &&& MSB_64 >>> (i % 64)) ≠ 0#64 :=
      word_ne_zero.2 ⟨i % 64, hk, by rw [hand, hc]; simp⟩
    simpa using this
  | false =>
    have : (w &&& MSB_64 >>> (i % 64)) = 0#64 := by
      by_contra hne
      obtain ⟨k, _, h2⟩ := word_ne_zero.1 hne
      rw [hand] at h2
      simp only [Bool.and_eq_true, decide_eq_true_eq] at h2
      rw [h2.2, hc] at h2
      simp at h2
    simp [this]

/-- `clz` finds the first set bit. -/
theorem clz_spec {w : Word} (h : w ≠ 0#64) :
    clz w < 64 ∧ w.getMsbD (clz w) = true ∧ ∀ k, k < clz w → w.getMsbD k = false := by
  have hn : w.toNat ≠ 0 := by
    intro h0; apply h; apply BitVec.eq_of_toNat_eq; simpa using h0
  have hlt : w.toNat.log2 < 64 := (Nat.log2_lt hn).2 w.isLt
  have hge := Nat.log2_self_le hn
  have hlt2 := Nat.lt_log2_self (n := w.toNat)
  have hc : clz w = 63 - w.toNat.log2 := rfl
  refine ⟨by omega, ?_, ?_⟩
  · rw [BitVec.getMsbD_eq_getLsbD]
    have h1 : clz w < 64 := by omega
    have h2 : 64 - 1 - clz w = w.toNat.log2 := by omega
    rw [h2]
    simp only [h1, decide_true, Bool.true_and]
    show w.toNat.testBit _ = true
    rw [Nat.testBit_eq_decide_div_mod_eq]
    have : w.toNat / 2 ^ w.toNat.log2 = 1 := by
      apply Nat.div_eq_of_lt_le
      · simpa using hge
      · rw [Nat.pow_succ] at hlt2; simpa [Nat.mul_comm] using hlt2
    simp [this]
  · intro k hk
    rw [BitVec.getMsbD_eq_getLsbD]
    have h1 : k < 64 := by omega
    simp only [h1, decide_true, Bool.true_and]
    show w.toNat.testBit _ = false
    apply Nat.testBit_lt_two_pow
    calc w.toNat < 2 ^ (w.toNat.log2 + 1) := hlt2
      _ ≤ 2 ^ (64 - 1 - k) := Nat.pow_le_pow_right (by decide) (by omega)

theorem dlen_pos {n : Nat} (h : 0 < n) : 0 < dlen n := by
  unfold dlen; split <;> omega

theorem dlen_le {n : Nat} : n ≤ 64 * dlen n := by
  unfold dlen; split <;> omega

theorem dlen_lt {n : Nat} : 64 * dlen n < n + 64 := by
  unfold dlen; split <;> omega

theorem dlen_mono {a b : Nat} (h : a ≤ b) : dlen a ≤ dlen b := by
  have := @dlen_le b; have := @dlen_lt a; omega

theorem dlen_le_self {n : Nat} : dlen n ≤ n := by
  unfold dlen; split <;> omega

theorem div_lt_dlen {i n : Nat} (h : i < n) : i / 64 < dlen n := by
  have := @dlen_le n; omega

/-- The padding bits of a bit set are zero. -/
def PadZero (m : Mem) (b : GBits) : Prop :=
  ∀ i, b.len ≤ i → i < 64 * dlen b.len → bitAt m (64 * b.off + i) = false

/-- The set of positions whose bit is 1. -/
def bset (m : Mem) (b : GBits) : Finset Nat :=
  (Finset.range b.len).filter fun i => bitAt m (64 * b.off + i) = true

theorem mem_bset {m : Mem} {b : GBits} {i : Nat} :
    i ∈ bset m b ↔ i < b.len ∧ bitAt m (64 * b.off + i) = true := by
  simp [bset]

theorem GBits.nextAux_spec (b : GBits) (m : Mem) (hin : b.off + dlen b.len ≤ m.length)
    (hpad : PadZero m b) :
    ∀ fuel i, b.len / 64 + 1 < fuel + i / 64 → i ≤ 64 * dlen b.len → 0 < fuel →
      ∃ r, b.nextAux m fuel i = .ok r ∧ min i b.len ≤ r ∧ r ≤ b.len ∧
        (r < b.len → r ∈ bset m b) ∧ ∀ k, k ∈ bset m b → i ≤ k → r ≤ k := by
  intro fuel
  induction fuel with
  | zero => intro i _ _ h; omega
  | succ fuel ih =>
    intro i hf hi _
    unfold GBits.nextAux
    by_cases hlt : i < b.len
    · have hw : b.off + i / 64 < m.length := by have := div_lt_dlen hlt; omega
      simp only [hlt, if_true, rd_getD 0#64 hw]
      have hk : i % 64 < 64 := Nat.mod_lt _ (by decide)
      have hmask : ∀ k, k < 64 →
          ((m.getD (b.off + i / 64) 0#64) &&& (ALL_ONES >>> (i % 64))).getMsbD k
          = (bitAt m (64 * b.off + (i / 64 * 64 + k)) && decide (i % 64 ≤ k)) := by
        intro k hk'
        rw [BitVec.getMsbD_and, allones_shift _ hk]
        have : 64 * b.off + (i / 64 * 64 + k) = 64 * (b.off + i / 64) + k := by omega
        rw [this, bitAt_word hk']
        simp [hk']
      by_cases hz : ((m.getD (b.off + i / 64) 0#64) &&& (ALL_ONES >>> (i % 64))) ≠ 0#64
      · rw [if_pos hz]
        obtain ⟨h1, h2, h3⟩ := clz_spec hz
        generalize hc : clz (m.getD (b.off + i / 64) 0#64 &&& ALL_ONES >>> (i % 64)) = c at *
        rw [hmask c h1] at h2
        simp only [Bool.and_eq_true, decide_eq_true_eq] at h2
        have hin' : i / 64 * 64 + c < b.len := by
          by_contra hge
          have := hpad (i / 64 * 64 + c) (by omega)
            (by have := div_lt_dlen hlt; omega)
          rw [this] at h2; simp at h2
        refine ⟨_, rfl, by omega, by omega, fun _ => mem_bset.2 ⟨hin', h2.1⟩, ?_⟩
        intro k hkb hik
        by_contra hlt'
        have hkm : k = i / 64 * 64 + (k - i / 64 * 64) := by omega
        have := h3 (k - i / 64 * 64) (by omega)
        rw [hmask _ (by omega), ← hkm, (mem_bset.1 hkb).2] at this
        simp at this; omega
      · rw [if_neg hz]
        simp only [ne_eq, not_not] at hz
        by_cases hfz : fuel = 0
        · exfalso; omega
        obtain ⟨r, hr, h1, h2, h3, h4⟩ := ih ((i / 64 + 1) * 64) (by omega)
          (by have := div_lt_dlen hlt; omega) (by omega)
        refine ⟨r, hr, by omega, h2, h3, ?_⟩
        intro k hkb hik
        by_cases hkb2 : (i / 64 + 1) * 64 ≤ k
        · exact h4 k hkb hkb2
        · exfalso
          have hkm : k = i / 64 * 64 + (k - i / 64 * 64) := by omega
          have := hmask (k - i / 64 * 64) (by omega)
          rw [hz, ← hkm, (mem_bset.1 hkb).2] at this
          simp at this; omega
    · simp only [hlt, if_false]
      exact ⟨b.len, rfl, by omega, Nat.le_refl _, by omega,
        fun k hk hik => absurd (mem_bset.1 hk).1 (by omega)⟩

/-- `next(i)` is the first member that is `≥ i`, or `len`. -/
theorem GBits.next_spec (b : GBits) (m : Mem) (i : Nat)
    (hin : b.off + dlen b.len ≤ m.length) (hpad : PadZero m b) (hi : i ≤ b.len) :
    ∃ r, b.next m i = .ok r ∧ i ≤ r ∧ r ≤ b.len ∧
      (r < b.len → r ∈ bset m b) ∧ ∀ k, k ∈ bset m b → i ≤ k → r ≤ k := by
  obtain ⟨r, h1, h2, h3, h4, h5⟩ := b.nextAux_spec m hin hpad (b.len / 64 + 2) i
    (by omega) (by have := @dlen_le b.len; omega) (by omega)
  exact ⟨r, h1, by omega, h3, h4, h5⟩

/-- Zeroing a run of words. -/
theorem zeroRange_spec (m : Mem) (off n : Nat) (h : off + n ≤ m.length) :
    ∃ m', forRange 0 n (fun i m => wr m (off + i) 0#64) m = .ok m' ∧
      m'.length = m.length ∧
      ∀ a, bitAt m' a = (if 64 * off ≤ a ∧ a < 64 * (off + n) then false else bitAt m a) := by
  obtain ⟨m', h1, h2, h3⟩ := forRange_rule (lo := 0) (hi := n) (s := m)
    (body := fun i m => wr m (off + i) 0#64)
    (fun i m' => m'.length = m.length ∧
      ∀ a, bitAt m' a = (if 64 * off ≤ a ∧ a < 64 * (off + i) then false else bitAt m a))
    (Nat.zero_le _) ⟨rfl, fun a => by rw [if_neg]; omega⟩
    (by
      rintro k s _ hk ⟨h1, h2⟩
      have hl : off + k < s.length := by omega
      refine ⟨_, wr_ok _ hl, by simpa using h1, ?_⟩
      intro a
      rw [bitAt_set hl, h2]
      by_cases he : a / 64 = off + k
      · rw [if_pos he, if_pos (by omega)]; simp
      · rw [if_neg he]
        by_cases h3 : 64 * off ≤ a ∧ a < 64 * (off + k)
        · rw [if_pos h3, if_pos (by omega)]
        · rw [if_neg h3, if_neg (by omega)])
  exact ⟨m', h1, h2, h3⟩

/-- `clear(N)`. -/
theorem GBits.clear_spec (b : GBits) (m : Mem) (N : Nat)
    (hin : b.off + dlen b.len ≤ m.length) :
    ∃ m' w, b.clear m N = .ok m' ∧ m'.length = m.length ∧ w ≤ dlen b.len ∧
      ((N = 0 ∨ b.len ≤ N) → w = dlen b.len) ∧ (N ≤ b.len → N ≤ 64 * w) ∧
      (N ≤ b.len → dlen N ≤ w) ∧
      ∀ a, bitAt m' a =
        (if 64 * b.off ≤ a ∧ a < 64 * (b.off + w) then false else bitAt m a) := by
  unfold GBits.clear
  generalize hw : (if N = 0 ∨ 1 + N / 64 > dlen b.len then dlen b.len else 1 + N / 64) = w
  have hwle : w ≤ dlen b.len := by rw [← hw]; split <;> omega
  obtain ⟨m', h1, h2, h3⟩ := zeroRange_spec m b.off w (by omega)
  refine ⟨m', w, ?_, h2, hwle, ?_, ?_, ?_, h3⟩
  · simp only [hw]; exact h1
  · have := @dlen_lt b.len
    have h4 := @dlen_le b.len
    rintro (h | h)
    · rw [← hw]; simp [h]
    · rw [← hw]; split <;> omega
  · have := @dlen_le b.len
    intro h; rw [← hw]; split <;> omega
  · have h4 := @dlen_mono N b.len
    have h5 := @dlen_lt N
    intro h; rw [← hw]; split <;> omega

/-- Copying a bit set to a disjoint place. -/
theorem GBits.copyData_spec (b : GBits) (o : Nat) (m : Mem)
    (hb : b.off + dlen b.len ≤ m.length) (ho : o + dlen b.len ≤ m.length)
    (hd : b.off + dlen b.len ≤ o ∨ o + dlen b.len ≤ b.off) :
    ∃ m', b.copyData o m = .ok m' ∧ m'.length = m.length ∧
      ∀ a, bitAt m' a = (if 64 * b.off ≤ a ∧ a < 64 * (b.off + dlen b.len)
        then bitAt m (a - 64 * b.off + 64 * o) else bitAt m a) := by
  unfold GBits.copyData
  obtain ⟨m', h1, h2, h3⟩ := forRange_rule (lo := 0) (hi := dlen b.len) (s := m)
    (body := fun i m => do
      let w ← rd m (o + i)
      wr m (b.off + i) w)
    (fun i m' => m'.length = m.length ∧
      ∀ a, bitAt m' a = (if 64 * b.off ≤ a ∧ a < 64 * (b.off + i)
        then bitAt m (a - 64 * b.off + 64 * o) else bitAt m a))
    (Nat.zero_le _) ⟨rfl, fun a => by rw [if_neg]; omega⟩
    (by
      rintro k s _ hk ⟨h1, h2⟩
      have hl : b.off + k < s.length := by omega
      have hl2 : o + k < s.length := by omega
      refine ⟨s.set (b.off + k) (s.getD (o + k) 0#64), ?_, by simpa using h1, ?_⟩
      · simp only [rd_getD 0#64 hl2, ok_bind, wr_ok _ hl]
      intro a
      rw [bitAt_set hl]
      by_cases he : a / 64 = b.off + k
      · rw [if_pos he, if_pos (by omega), ← bitAt_word (Nat.mod_lt _ (by decide)), h2,
          if_neg (by omega)]
        congr 1; omega
      · rw [if_neg he, h2]
        by_cases h3 : 64 * b.off ≤ a ∧ a < 64 * (b.off + k)
        · rw [if_pos h3, if_pos (by omega)]
        · rw [if_neg h3, if_neg (by omega)])
  exact ⟨m', h1, h2, h3⟩

end CM
