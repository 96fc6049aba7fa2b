import Verif.Lemmas.Bits
import Mathlib.Tactic.IntervalCases

/-! # The SWAR population count (`gbits.cpp:15-24`) counts the set bits -/

namespace CM

/-- Eight bytes as one word. -/
def cat8 (b7 b6 b5 b4 b3 b2 b1 b0 : BitVec 8) : Word :=
  b7 ++ (b6 ++ (b5 ++ (b4 ++ (b3 ++ (b2 ++ (b1 ++ b0))))))

theorem toNat_append_add {w v : Nat} (x : BitVec w) (y : BitVec v) :
    (x ++ y).toNat = x.toNat * 2 ^ v + y.toNat := by
  rw [BitVec.toNat_append, ← Nat.shiftLeft_add_eq_or_of_lt y.isLt, Nat.shiftLeft_eq]

theorem cat8_toNat (b7 b6 b5 b4 b3 b2 b1 b0 : BitVec 8) :
    (cat8 b7 b6 b5 b4 b3 b2 b1 b0).toNat = b7.toNat * 2 ^ 56 + b6.toNat * 2 ^ 48 + b5.toNat * 2 ^ 40
      + b4.toNat * 2 ^ 32 + b3.toNat * 2 ^ 24 + b2.toNat * 2 ^ 16 + b1.toNat * 2 ^ 8
      + b0.toNat := by
  unfold cat8
  simp only [toNat_append_add]
  omega

theorem cat8_getLsbD (b7 b6 b5 b4 b3 b2 b1 b0 : BitVec 8) (i : Nat) :
    (cat8 b7 b6 b5 b4 b3 b2 b1 b0).getLsbD i =
      if i < 8 then b0.getLsbD i else if i < 16 then b1.getLsbD (i - 8)
      else if i < 24 then b2.getLsbD (i - 16) else if i < 32 then b3.getLsbD (i - 24)
      else if i < 40 then b4.getLsbD (i - 32) else if i < 48 then b5.getLsbD (i - 40)
      else if i < 56 then b6.getLsbD (i - 48) else b7.getLsbD (i - 56) := by
  by_cases hi : 64 ≤ i
  · rw [BitVec.getLsbD_of_ge _ _ hi, if_neg (by omega), if_neg (by omega), if_neg (by omega),
      if_neg (by omega), if_neg (by omega), if_neg (by omega), if_neg (by omega),
      BitVec.getLsbD_of_ge _ _ (by omega)]
  unfold cat8
  simp only [BitVec.getLsbD_append]
  repeat' split
  all_goals first | (exfalso; omega) | rfl

theorem exists_cat8 (w : Word) : ∃ b7 b6 b5 b4 b3 b2 b1 b0 : BitVec 8, w = cat8 b7 b6 b5 b4 b3 b2 b1 b0 := by
  refine ⟨w.extractLsb' 56 8, w.extractLsb' 48 8, w.extractLsb' 40 8, w.extractLsb' 32 8,
    w.extractLsb' 24 8, w.extractLsb' 16 8, w.extractLsb' 8 8, w.extractLsb' 0 8, ?_⟩
  apply BitVec.eq_of_getLsbD_eq
  intro i hi
  rw [cat8_getLsbD]
  simp only [BitVec.getLsbD_extractLsb']
  repeat' split
  all_goals
    rw [decide_eq_true (by omega)]
    simp only [Bool.true_and]
    congr 1
    omega

theorem cat8_mask1_55 (b7 b6 b5 b4 b3 b2 b1 b0 : BitVec 8) :
    (cat8 b7 b6 b5 b4 b3 b2 b1 b0 >>> 1) &&& 0x5555555555555555#64 =
      cat8 ((b7 >>> 1) &&& 0x55#8) ((b6 >>> 1) &&& 0x55#8) ((b5 >>> 1) &&& 0x55#8) ((b4 >>> 1) &&& 0x55#8) ((b3 >>> 1) &&& 0x55#8) ((b2 >>> 1) &&& 0x55#8) ((b1 >>> 1) &&& 0x55#8) ((b0 >>> 1) &&& 0x55#8) := by
  apply BitVec.eq_of_getLsbD_eq
  intro i hi
  simp only [BitVec.getLsbD_and, BitVec.getLsbD_ushiftRight, cat8_getLsbD]
  interval_cases i <;> simp

theorem cat8_mask2_33 (b7 b6 b5 b4 b3 b2 b1 b0 : BitVec 8) :
    (cat8 b7 b6 b5 b4 b3 b2 b1 b0 >>> 2) &&& 0x3333333333333333#64 =
      cat8 ((b7 >>> 2) &&& 0x33#8) ((b6 >>> 2) &&& 0x33#8) ((b5 >>> 2) &&& 0x33#8) ((b4 >>> 2) &&& 0x33#8) ((b3 >>> 2) &&& 0x33#8) ((b2 >>> 2) &&& 0x33#8) ((b1 >>> 2) &&& 0x33#8) ((b0 >>> 2) &&& 0x33#8) := by
  apply BitVec.eq_of_getLsbD_eq
  intro i hi
  simp only [BitVec.getLsbD_and, BitVec.getLsbD_ushiftRight, cat8_getLsbD]
  interval_cases i <;> simp

theorem cat8_mask0_33 (b7 b6 b5 b4 b3 b2 b1 b0 : BitVec 8) :
    cat8 b7 b6 b5 b4 b3 b2 b1 b0 &&& 0x3333333333333333#64 =
      cat8 (b7 &&& 0x33#8) (b6 &&& 0x33#8) (b5 &&& 0x33#8) (b4 &&& 0x33#8) (b3 &&& 0x33#8) (b2 &&& 0x33#8) (b1 &&& 0x33#8) (b0 &&& 0x33#8) := by
  apply BitVec.eq_of_getLsbD_eq
  intro i hi
  simp only [BitVec.getLsbD_and, BitVec.getLsbD_ushiftRight, cat8_getLsbD]
  interval_cases i <;> simp

theorem cat8_mask0_0f (b7 b6 b5 b4 b3 b2 b1 b0 : BitVec 8) :
    cat8 b7 b6 b5 b4 b3 b2 b1 b0 &&& 0x0f0f0f0f0f0f0f0f#64 =
      cat8 (b7 &&& 0x0f#8) (b6 &&& 0x0f#8) (b5 &&& 0x0f#8) (b4 &&& 0x0f#8) (b3 &&& 0x0f#8) (b2 &&& 0x0f#8) (b1 &&& 0x0f#8) (b0 &&& 0x0f#8) := by
  apply BitVec.eq_of_getLsbD_eq
  intro i hi
  simp only [BitVec.getLsbD_and, BitVec.getLsbD_ushiftRight, cat8_getLsbD]
  interval_cases i <;> simp

theorem cat8_add (b7 b6 b5 b4 b3 b2 b1 b0 c7 c6 c5 c4 c3 c2 c1 c0 : BitVec 8)
    (h7 : b7.toNat + c7.toNat < 256) (h6 : b6.toNat + c6.toNat < 256) (h5 : b5.toNat + c5.toNat < 256) (h4 : b4.toNat + c4.toNat < 256) (h3 : b3.toNat + c3.toNat < 256) (h2 : b2.toNat + c2.toNat < 256) (h1 : b1.toNat + c1.toNat < 256) (h0 : b0.toNat + c0.toNat < 256) :
    cat8 b7 b6 b5 b4 b3 b2 b1 b0 + cat8 c7 c6 c5 c4 c3 c2 c1 c0 =
      cat8 (b7 + c7) (b6 + c6) (b5 + c5) (b4 + c4) (b3 + c3) (b2 + c2) (b1 + c1) (b0 + c0) := by
  apply BitVec.eq_of_toNat_eq
  have k0 : ∀ x y : BitVec 8, x.toNat + y.toNat < 256 → (x + y).toNat = x.toNat + y.toNat := by
    intro x y h; rw [BitVec.toNat_add]; omega
  rw [BitVec.toNat_add, cat8_toNat, cat8_toNat, cat8_toNat]
  rw [k0 _ _ h7, k0 _ _ h6, k0 _ _ h5, k0 _ _ h4, k0 _ _ h3, k0 _ _ h2, k0 _ _ h1, k0 _ _ h0]
  omega

theorem cat8_sub (b7 b6 b5 b4 b3 b2 b1 b0 c7 c6 c5 c4 c3 c2 c1 c0 : BitVec 8)
    (h7 : c7.toNat ≤ b7.toNat) (h6 : c6.toNat ≤ b6.toNat) (h5 : c5.toNat ≤ b5.toNat) (h4 : c4.toNat ≤ b4.toNat) (h3 : c3.toNat ≤ b3.toNat) (h2 : c2.toNat ≤ b2.toNat) (h1 : c1.toNat ≤ b1.toNat) (h0 : c0.toNat ≤ b0.toNat) :
    cat8 b7 b6 b5 b4 b3 b2 b1 b0 - cat8 c7 c6 c5 c4 c3 c2 c1 c0 =
      cat8 (b7 - c7) (b6 - c6) (b5 - c5) (b4 - c4) (b3 - c3) (b2 - c2) (b1 - c1) (b0 - c0) := by
  have k0 : ∀ x y : BitVec 8, y.toNat ≤ x.toNat → y.toNat + (x - y).toNat < 256 := by
    intro x y h; rw [BitVec.toNat_sub]; omega
  have k1 : ∀ x y : BitVec 8, y + (x - y) = x := by
    intro x y; rw [BitVec.add_comm, BitVec.sub_add_cancel]
  have := cat8_add c7 c6 c5 c4 c3 c2 c1 c0 (b7 - c7) (b6 - c6) (b5 - c5) (b4 - c4) (b3 - c3) (b2 - c2) (b1 - c1) (b0 - c0)
    (k0 _ _ h7) (k0 _ _ h6) (k0 _ _ h5) (k0 _ _ h4) (k0 _ _ h3) (k0 _ _ h2) (k0 _ _ h1) (k0 _ _ h0)
  simp only [k1] at this
  rw [← this, BitVec.add_comm, BitVec.add_sub_cancel]

/-- First step on a byte. -/
def by1 (b : BitVec 8) : BitVec 8 := b - ((b >>> 1) &&& 0x55#8)
/-- Second step on a byte. -/
def by2 (b : BitVec 8) : BitVec 8 := (b &&& 0x33#8) + ((b >>> 2) &&& 0x33#8)

theorem by_facts : ∀ b : BitVec 8,
    ((b >>> 1) &&& 0x55#8).toNat ≤ b.toNat ∧
    (b &&& 0x33#8).toNat + ((b >>> 2) &&& 0x33#8).toNat < 256 ∧
    (by2 (by1 b)).toNat / 16 ≤ 4 ∧ (by2 (by1 b)).toNat % 16 ≤ 4 ∧
    (by2 (by1 b)).toNat / 16 + (by2 (by1 b)).toNat % 16 = b.cpop.toNat := by
  decide +kernel

theorem low_nibble : ∀ b : BitVec 8, (b &&& 0x0f#8).toNat = b.toNat % 16 := by
  decide +kernel

/-- Third step, arithmetic: nibble sums without carries. -/
theorem step3_arith (h7 l7 h6 l6 h5 l5 h4 l4 h3 l3 h2 l2 h1 l1 h0 l0 : Nat)
    (a7 : h7 ≤ 4) (c7 : l7 ≤ 4) (a6 : h6 ≤ 4) (c6 : l6 ≤ 4) (a5 : h5 ≤ 4) (c5 : l5 ≤ 4) (a4 : h4 ≤ 4) (c4 : l4 ≤ 4) (a3 : h3 ≤ 4) (c3 : l3 ≤ 4) (a2 : h2 ≤ 4) (c2 : l2 ≤ 4) (a1 : h1 ≤ 4) (c1 : l1 ≤ 4) (a0 : h0 ≤ 4) (c0 : l0 ≤ 4) :
    ((16 * h7 + l7) * 2 ^ 56 + (16 * h6 + l6) * 2 ^ 48 + (16 * h5 + l5) * 2 ^ 40 + (16 * h4 + l4) * 2 ^ 32 + (16 * h3 + l3) * 2 ^ 24 + (16 * h2 + l2) * 2 ^ 16 + (16 * h1 + l1) * 2 ^ 8 + (16 * h0 + l0) * 2 ^ 0
      + ((16 * h7 + l7) * 2 ^ 56 + (16 * h6 + l6) * 2 ^ 48 + (16 * h5 + l5) * 2 ^ 40 + (16 * h4 + l4) * 2 ^ 32 + (16 * h3 + l3) * 2 ^ 24 + (16 * h2 + l2) * 2 ^ 16 + (16 * h1 + l1) * 2 ^ 8 + (16 * h0 + l0) * 2 ^ 0) / 16) % 2 ^ 64 =
      (16 * (h7 + 0) + (h7 + l7)) * 2 ^ 56 + (16 * (h6 + l7) + (h6 + l6)) * 2 ^ 48 + (16 * (h5 + l6) + (h5 + l5)) * 2 ^ 40 + (16 * (h4 + l5) + (h4 + l4)) * 2 ^ 32 + (16 * (h3 + l4) + (h3 + l3)) * 2 ^ 24 + (16 * (h2 + l3) + (h2 + l2)) * 2 ^ 16 + (16 * (h1 + l2) + (h1 + l1)) * 2 ^ 8 + (16 * (h0 + l1) + (h0 + l0)) * 2 ^ 0 := by
  have e : ((16 * h7 + l7) * 2 ^ 56 + (16 * h6 + l6) * 2 ^ 48 + (16 * h5 + l5) * 2 ^ 40 + (16 * h4 + l4) * 2 ^ 32 + (16 * h3 + l3) * 2 ^ 24 + (16 * h2 + l2) * 2 ^ 16 + (16 * h1 + l1) * 2 ^ 8 + (16 * h0 + l0) * 2 ^ 0) / 16
      = h0 + (16 * h7 + l7) * 2 ^ 52 + (16 * h6 + l6) * 2 ^ 44 + (16 * h5 + l5) * 2 ^ 36 + (16 * h4 + l4) * 2 ^ 28 + (16 * h3 + l3) * 2 ^ 20 + (16 * h2 + l2) * 2 ^ 12 + (16 * h1 + l1) * 2 ^ 4 := by
    omega
  rw [e]
  rw [Nat.mod_eq_of_lt (by omega)]
  omega

theorem nib (b : BitVec 8) : b.toNat = 16 * (b.toNat / 16) + b.toNat % 16 := by omega

theorem nib_ofNat (h l : Nat) (hh : h ≤ 8) (hl : l ≤ 8) :
    (BitVec.ofNat 8 (16 * h + l)).toNat = 16 * h + l := by
  rw [BitVec.toNat_ofNat]; omega

/-- Third step: nibble sums without carries. -/
theorem step3 (b7 b6 b5 b4 b3 b2 b1 b0 : BitVec 8)
    (h7 : b7.toNat / 16 ≤ 4) (l7 : b7.toNat % 16 ≤ 4) (h6 : b6.toNat / 16 ≤ 4) (l6 : b6.toNat % 16 ≤ 4) (h5 : b5.toNat / 16 ≤ 4) (l5 : b5.toNat % 16 ≤ 4) (h4 : b4.toNat / 16 ≤ 4) (l4 : b4.toNat % 16 ≤ 4) (h3 : b3.toNat / 16 ≤ 4) (l3 : b3.toNat % 16 ≤ 4) (h2 : b2.toNat / 16 ≤ 4) (l2 : b2.toNat % 16 ≤ 4) (h1 : b1.toNat / 16 ≤ 4) (l1 : b1.toNat % 16 ≤ 4) (h0 : b0.toNat / 16 ≤ 4) (l0 : b0.toNat % 16 ≤ 4) :
    ((cat8 b7 b6 b5 b4 b3 b2 b1 b0 + (cat8 b7 b6 b5 b4 b3 b2 b1 b0 >>> 4)) &&& 0x0f0f0f0f0f0f0f0f#64).toNat =
      (b7.toNat / 16 + b7.toNat % 16) * 2 ^ 56 + (b6.toNat / 16 + b6.toNat % 16) * 2 ^ 48 + (b5.toNat / 16 + b5.toNat % 16) * 2 ^ 40 + (b4.toNat / 16 + b4.toNat % 16) * 2 ^ 32 + (b3.toNat / 16 + b3.toNat % 16) * 2 ^ 24 + (b2.toNat / 16 + b2.toNat % 16) * 2 ^ 16 + (b1.toNat / 16 + b1.toNat % 16) * 2 ^ 8
      + (b0.toNat / 16 + b0.toNat % 16) := by
  have key : cat8 b7 b6 b5 b4 b3 b2 b1 b0 + (cat8 b7 b6 b5 b4 b3 b2 b1 b0 >>> 4) = cat8
      (BitVec.ofNat 8 (16 * (b7.toNat / 16 + 0) + (b7.toNat / 16 + b7.toNat % 16))) (BitVec.ofNat 8 (16 * (b6.toNat / 16 + b7.toNat % 16) + (b6.toNat / 16 + b6.toNat % 16))) (BitVec.ofNat 8 (16 * (b5.toNat / 16 + b6.toNat % 16) + (b5.toNat / 16 + b5.toNat % 16))) (BitVec.ofNat 8 (16 * (b4.toNat / 16 + b5.toNat % 16) + (b4.toNat / 16 + b4.toNat % 16))) (BitVec.ofNat 8 (16 * (b3.toNat / 16 + b4.toNat % 16) + (b3.toNat / 16 + b3.toNat % 16))) (BitVec.ofNat 8 (16 * (b2.toNat / 16 + b3.toNat % 16) + (b2.toNat / 16 + b2.toNat % 16))) (BitVec.ofNat 8 (16 * (b1.toNat / 16 + b2.toNat % 16) + (b1.toNat / 16 + b1.toNat % 16))) (BitVec.ofNat 8 (16 * (b0.toNat / 16 + b1.toNat % 16) + (b0.toNat / 16 + b0.toNat % 16))) := by
    apply BitVec.eq_of_toNat_eq
    rw [BitVec.toNat_add, BitVec.toNat_ushiftRight, cat8_toNat, cat8_toNat, Nat.shiftRight_eq_div_pow]
    rw [nib_ofNat (b7.toNat / 16 + 0) (b7.toNat / 16 + b7.toNat % 16) (by omega) (by omega), nib_ofNat (b6.toNat / 16 + b7.toNat % 16) (b6.toNat / 16 + b6.toNat % 16) (by omega) (by omega), nib_ofNat (b5.toNat / 16 + b6.toNat % 16) (b5.toNat / 16 + b5.toNat % 16) (by omega) (by omega), nib_ofNat (b4.toNat / 16 + b5.toNat % 16) (b4.toNat / 16 + b4.toNat % 16) (by omega) (by omega), nib_ofNat (b3.toNat / 16 + b4.toNat % 16) (b3.toNat / 16 + b3.toNat % 16) (by omega) (by omega), nib_ofNat (b2.toNat / 16 + b3.toNat % 16) (b2.toNat / 16 + b2.toNat % 16) (by omega) (by omega), nib_ofNat (b1.toNat / 16 + b2.toNat % 16) (b1.toNat / 16 + b1.toNat % 16) (by omega) (by omega), nib_ofNat (b0.toNat / 16 + b1.toNat % 16) (b0.toNat / 16 + b0.toNat % 16) (by omega) (by omega)]
    have := step3_arith (b7.toNat / 16) (b7.toNat % 16) (b6.toNat / 16) (b6.toNat % 16) (b5.toNat / 16) (b5.toNat % 16) (b4.toNat / 16) (b4.toNat % 16) (b3.toNat / 16) (b3.toNat % 16) (b2.toNat / 16) (b2.toNat % 16) (b1.toNat / 16) (b1.toNat % 16) (b0.toNat / 16) (b0.toNat % 16) h7 l7 h6 l6 h5 l5 h4 l4 h3 l3 h2 l2 h1 l1 h0 l0
    simp only [← nib] at this
    simpa using this
  rw [key, cat8_mask0_0f, cat8_toNat]
  simp only [low_nibble]
  rw [nib_ofNat (b7.toNat / 16 + 0) (b7.toNat / 16 + b7.toNat % 16) (by omega) (by omega), nib_ofNat (b6.toNat / 16 + b7.toNat % 16) (b6.toNat / 16 + b6.toNat % 16) (by omega) (by omega), nib_ofNat (b5.toNat / 16 + b6.toNat % 16) (b5.toNat / 16 + b5.toNat % 16) (by omega) (by omega), nib_ofNat (b4.toNat / 16 + b5.toNat % 16) (b4.toNat / 16 + b4.toNat % 16) (by omega) (by omega), nib_ofNat (b3.toNat / 16 + b4.toNat % 16) (b3.toNat / 16 + b3.toNat % 16) (by omega) (by omega), nib_ofNat (b2.toNat / 16 + b3.toNat % 16) (b2.toNat / 16 + b2.toNat % 16) (by omega) (by omega), nib_ofNat (b1.toNat / 16 + b2.toNat % 16) (b1.toNat / 16 + b1.toNat % 16) (by omega) (by omega), nib_ofNat (b0.toNat / 16 + b1.toNat % 16) (b0.toNat / 16 + b0.toNat % 16) (by omega) (by omega)]
  have m : ∀ h l : Nat, l ≤ 8 → (16 * h + l) % 16 = l := by intro h l hl; omega
  rw [m _ (b7.toNat / 16 + b7.toNat % 16) (by omega), m _ (b6.toNat / 16 + b6.toNat % 16) (by omega), m _ (b5.toNat / 16 + b5.toNat % 16) (by omega), m _ (b4.toNat / 16 + b4.toNat % 16) (by omega), m _ (b3.toNat / 16 + b3.toNat % 16) (by omega), m _ (b2.toNat / 16 + b2.toNat % 16) (by omega), m _ (b1.toNat / 16 + b1.toNat % 16) (by omega), m _ (b0.toNat / 16 + b0.toNat % 16) (by omega)]

theorem div_split {x A r d : Nat} (h : x = A * d + r) (hr : r < d) : x / d = A := by
  have hd : 0 < d := by omega
  rw [h, Nat.mul_comm, Nat.mul_add_div hd, Nat.div_eq_of_lt hr, Nat.add_zero]

theorem mod_split {x A r d : Nat} (h : x = A * d + r) (hr : r < d) : x % d = r := by
  rw [h, Nat.mul_comm, Nat.mul_add_mod, Nat.mod_eq_of_lt hr]

/-- One folding step `n + (n >> s)`. -/
theorem fold_step (n : Word) (s A r : Nat) (hn : n.toNat = A * 2 ^ s + r) (hr : r < 2 ^ s)
    (hs : n.toNat + A < 2 ^ 64) : (n + (n >>> s)).toNat = n.toNat + A := by
  rw [BitVec.toNat_add, BitVec.toNat_ushiftRight, Nat.shiftRight_eq_div_pow,
    div_split hn hr, Nat.mod_eq_of_lt hs]

/-- The last three additions sum the bytes. -/
theorem fold_bytes (n : Word) (k0 k1 k2 k3 k4 k5 k6 k7 : Nat)
    (h0 : k0 ≤ 8) (h1 : k1 ≤ 8) (h2 : k2 ≤ 8) (h3 : k3 ≤ 8)
    (h4 : k4 ≤ 8) (h5 : k5 ≤ 8) (h6 : k6 ≤ 8) (h7 : k7 ≤ 8)
    (hn : n.toNat = k7 * 2 ^ 56 + k6 * 2 ^ 48 + k5 * 2 ^ 40 + k4 * 2 ^ 32 + k3 * 2 ^ 24
      + k2 * 2 ^ 16 + k1 * 2 ^ 8 + k0) :
    ((((n + (n >>> 8)) + ((n + (n >>> 8)) >>> 16))
      + (((n + (n >>> 8)) + ((n + (n >>> 8)) >>> 16)) >>> 32)) &&& 0x7f#64).toNat
      = k0 + k1 + k2 + k3 + k4 + k5 + k6 + k7 := by
  have e1 := fold_step n 8 (k7 * 2 ^ 48 + k6 * 2 ^ 40 + k5 * 2 ^ 32 + k4 * 2 ^ 24
      + k3 * 2 ^ 16 + k2 * 2 ^ 8 + k1) k0 (by rw [hn]; clear * -; omega) (by clear hn; omega)
      (by rw [hn]; clear hn; omega)
  generalize n + (n >>> 8) = p at *
  rw [hn] at e1
  clear hn
  have e2 := fold_step p 16 (k7 * 2 ^ 40 + (k6 + k7) * 2 ^ 32 + (k5 + k6) * 2 ^ 24
        + (k4 + k5) * 2 ^ 16 + (k3 + k4) * 2 ^ 8 + (k2 + k3)) ((k1 + k2) * 2 ^ 8 + (k0 + k1))
      (by rw [e1]; clear * -; omega) (by clear e1; omega)
      (by rw [e1]; clear e1; omega)
  generalize p + (p >>> 16) = q at *
  rw [e1] at e2
  clear e1
  have e3 := fold_step q 32 (k7 * 2 ^ 24 + (k6 + k7) * 2 ^ 16 + (k5 + k6 + k7) * 2 ^ 8
      + (k4 + k5 + k6 + k7)) ((k3 + k4 + k5 + k6) * 2 ^ 24 + (k2 + k3 + k4 + k5) * 2 ^ 16
      + (k1 + k2 + k3 + k4) * 2 ^ 8 + (k0 + k1 + k2 + k3))
      (by rw [e2]; clear * -; omega) (by clear e2; omega)
      (by rw [e2]; clear e2; omega)
  generalize q + (q >>> 32) = r at *
  rw [e2] at e3
  clear e2
  have hm : (0x7f#64 : Word).toNat = 2 ^ 7 - 1 := by decide
  rw [BitVec.toNat_and, hm, Nat.and_two_pow_sub_one_eq_mod]
  refine mod_split (A := 2 * (k7 * 2 ^ 48 + (k6 + k7) * 2 ^ 40 + (k5 + k6 + k7) * 2 ^ 32
    + (k4 + k5 + k6 + k7) * 2 ^ 24 + (k3 + k4 + k5 + k6) * 2 ^ 16 + (k2 + k3 + k4 + k5) * 2 ^ 8
    + (k1 + k2 + k3 + k4) + k7 * 2 ^ 16 + (k6 + k7) * 2 ^ 8 + (k5 + k6 + k7))) ?_ (by clear e3; omega)
  rw [e3]
  clear * -
  omega

/-- gbits.cpp:15-24 returns the number of one bits, for every word. -/
theorem bitcount_eq (w : Word) : bitcount w = w.cpop.toNat := by
  obtain ⟨b7, b6, b5, b4, b3, b2, b1, b0, rfl⟩ := exists_cat8 w
  unfold bitcount
  simp only []
  rw [cat8_mask1_55, cat8_sub _ _ _ _ _ _ _ _ _ _ _ _ _ _ _ _ (by_facts _).1 (by_facts _).1 (by_facts _).1 (by_facts _).1 (by_facts _).1 (by_facts _).1 (by_facts _).1 (by_facts _).1]
  rw [cat8_mask2_33, cat8_mask0_33,
    cat8_add _ _ _ _ _ _ _ _ _ _ _ _ _ _ _ _ (by_facts _).2.1 (by_facts _).2.1 (by_facts _).2.1 (by_facts _).2.1 (by_facts _).2.1 (by_facts _).2.1 (by_facts _).2.1 (by_facts _).2.1]
  have h3 := step3 (by2 (by1 b7)) (by2 (by1 b6)) (by2 (by1 b5)) (by2 (by1 b4)) (by2 (by1 b3)) (by2 (by1 b2)) (by2 (by1 b1)) (by2 (by1 b0))
    (by_facts _).2.2.1 (by_facts _).2.2.2.1 (by_facts _).2.2.1 (by_facts _).2.2.2.1 (by_facts _).2.2.1 (by_facts _).2.2.2.1 (by_facts _).2.2.1 (by_facts _).2.2.2.1 (by_facts _).2.2.1 (by_facts _).2.2.2.1 (by_facts _).2.2.1 (by_facts _).2.2.2.1 (by_facts _).2.2.1 (by_facts _).2.2.2.1 (by_facts _).2.2.1 (by_facts _).2.2.2.1
  simp only [(by_facts _).2.2.2.2] at h3
  refine (fold_bytes _ b0.cpop.toNat b1.cpop.toNat b2.cpop.toNat b3.cpop.toNat b4.cpop.toNat b5.cpop.toNat b6.cpop.toNat b7.cpop.toNat
    (BitVec.toNat_cpop_le _) (BitVec.toNat_cpop_le _) (BitVec.toNat_cpop_le _) (BitVec.toNat_cpop_le _) (BitVec.toNat_cpop_le _) (BitVec.toNat_cpop_le _) (BitVec.toNat_cpop_le _) (BitVec.toNat_cpop_le _) ?_).trans ?_
  · exact h3
  · unfold cat8
    simp only [BitVec.toNat_cpop_append]
    omega

end CM
