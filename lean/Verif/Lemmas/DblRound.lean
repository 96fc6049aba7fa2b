import Verif.SpecDouble
import Mathlib.Tactic.Linarith
import Mathlib.Tactic.FieldSimp
import Mathlib.Tactic.Ring
import Mathlib.Tactic.Positivity
import Mathlib.Tactic.Zify
import Mathlib.Data.Rat.Cast.Order

/-! # Facts about rounding -/

namespace CM

namespace Dbl

open Spec

theorem divEven_nearest {a b : Nat} (hb : 0 < b) (z : Int) :
    |(divEven a b : Rat) - a / b| ≤ |(z : Rat) - a / b| := by
  have hb' : (0 : Rat) < b := by exact_mod_cast hb
  have hdm : (b : Rat) * (a / b : Nat) + (a % b : Nat) = a := by
    exact_mod_cast Nat.div_add_mod a b
  have hr : ((a % b : Nat) : Rat) < b := by exact_mod_cast Nat.mod_lt a hb
  have hr0 : (0 : Rat) ≤ ((a % b : Nat) : Rat) := by positivity
  generalize hm : a / b = m at hdm
  generalize hrr : a % b = r at hdm hr hr0
  have hq : (a : Rat) / b = m + r / b := by
    rw [div_eq_iff (ne_of_gt hb')]; field_simp; linarith
  have ht0 : (0 : Rat) ≤ r / b := by positivity
  have ht1 : (r : Rat) / b < 1 := by rw [div_lt_one hb']; exact hr
  rw [hq]
  generalize ht : (r : Rat) / b = t at ht0 ht1
  have hlo : z ≤ m → t ≤ |(z : Rat) - (m + t)| := by
    intro hz
    have : (z : Rat) ≤ m := by exact_mod_cast hz
    rw [abs_sub_comm]
    exact le_trans (by linarith) (le_abs_self _)
  have hhi : ¬ z ≤ m → 1 - t ≤ |(z : Rat) - (m + t)| := by
    intro hz
    have : (m : Int) + 1 ≤ z := by omega
    have : (m : Rat) + 1 ≤ z := by exact_mod_cast this
    exact le_trans (by linarith) (le_abs_self _)
  have hd : ∀ x : Nat, 2 * x < b ↔ (x : Rat) / b < 1 / 2 := by
    intro x
    rw [div_lt_div_iff₀ hb' (by norm_num)]
    constructor
    · intro h; have : (2 * x : Rat) < b := by exact_mod_cast h
      linarith
    · intro h; have : (2 * x : Rat) < b := by linarith
      exact_mod_cast this
  have hd2 : ∀ x : Nat, b < 2 * x ↔ 1 / 2 < (x : Rat) / b := by
    intro x
    rw [div_lt_div_iff₀ (by norm_num) hb']
    constructor
    · intro h; have : (b : Rat) < 2 * x := by exact_mod_cast h
      linarith
    · intro h; have : (b : Rat) < 2 * x := by linarith
      exact_mod_cast this
  have hs : |(m : Rat) - (m + t)| = t := by
    rw [show (m : Rat) - (m + t) = -t by ring, abs_neg, abs_of_nonneg ht0]
  have hs1 : |(m : Rat) + 1 - (m + t)| = 1 - t := by
    rw [show (m : Rat) + 1 - (m + t) = 1 - t by ring, abs_of_nonneg (by linarith)]
  simp only [divEven, hm, hrr, hd r, hd2 r, ht]
  by_cases h1 : t < 1 / 2
  · rw [if_pos h1, hs]
    by_cases hz : z ≤ m
    · exact hlo hz
    · exact le_trans (by linarith) (hhi hz)
  · rw [if_neg h1]
    by_cases h2 : 1 / 2 < t
    · rw [if_pos h2]
      push_cast
      rw [hs1]
      by_cases hz : z ≤ m
      · exact le_trans (by linarith) (hlo hz)
      · exact hhi hz
    · rw [if_neg h2]
      have h3 : t = 1 / 2 := le_antisymm (not_lt.1 h2) (not_lt.1 h1)
      have h4 : |((m + m % 2 : Nat) : Rat) - (m + t)| = 1 / 2 := by
        rcases Nat.mod_two_eq_zero_or_one m with h | h
        · rw [h, Nat.add_zero, hs, h3]
        · rw [h]; push_cast; rw [hs1, h3]; norm_num
      rw [h4]
      by_cases hz : z ≤ m
      · exact le_trans (by linarith) (hlo hz)
      · exact le_trans (by linarith) (hhi hz)

theorem divEven_exact {a b m : Nat} (hb : 0 < b) (h : a = b * m) : divEven a b = m := by
  subst h
  simp [divEven, Nat.mul_div_cancel_left m hb, hb]

/-- `⌊log₂ (a / b)⌋`. -/
def flog (a b : Nat) : Int :=
  let e : Int := (a.log2 : Int) - b.log2
  if 0 ≤ e then (if a < b * 2 ^ e.toNat then e - 1 else e)
    else if a * 2 ^ (-e).toNat < b then e - 1 else e

theorem ulp_eq (a b : Nat) : ulp a b = max (flog a b - 52) (-1074) := rfl

theorem zpow_toNat {e : Int} (h : 0 ≤ e) : ((2 : Rat) ^ e.toNat) = 2 ^ e := by
  rw [← zpow_natCast, Int.toNat_of_nonneg h]

theorem zpow_toNat_neg {e : Int} (h : e ≤ 0) : ((2 : Rat) ^ (-e).toNat) = (2 ^ e)⁻¹ := by
  rw [← zpow_natCast, Int.toNat_of_nonneg (by omega), zpow_neg]

theorem flog_spec {a b : Nat} (ha : 0 < a) (hb : 0 < b) :
    (2 : Rat) ^ flog a b ≤ a / b ∧ (a : Rat) / b < 2 ^ (flog a b + 1) := by
  have hb' : (0 : Rat) < b := by exact_mod_cast hb
  have ha' : (0 : Rat) < a := by exact_mod_cast ha
  have h2 : (2 : Rat) ≠ 0 := by norm_num
  have la : (2 : Rat) ^ (a.log2 : Int) ≤ a := by
    rw [zpow_natCast]; exact_mod_cast Nat.log2_self_le (by omega)
  have la' : (a : Rat) < 2 ^ ((a.log2 : Int) + 1) := by
    have := @Nat.lt_log2_self a
    rw [show (a.log2 : Int) + 1 = ((a.log2 + 1 : Nat) : Int) by push_cast; rfl, zpow_natCast]
    exact_mod_cast this
  have lb : (2 : Rat) ^ (b.log2 : Int) ≤ b := by
    rw [zpow_natCast]; exact_mod_cast Nat.log2_self_le (by omega)
  have lb' : (b : Rat) < 2 ^ ((b.log2 : Int) + 1) := by
    have := @Nat.lt_log2_self b
    rw [show (b.log2 : Int) + 1 = ((b.log2 + 1 : Nat) : Int) by push_cast; rfl, zpow_natCast]
    exact_mod_cast this
  generalize hx : (a.log2 : Int) = x at la la'
  generalize hy : (b.log2 : Int) = y at lb lb'
  have hup : (a : Rat) / b < 2 ^ (x - y + 1) := by
    rw [div_lt_iff₀ hb']
    calc (a : Rat) < 2 ^ (x + 1) := la'
      _ = 2 ^ (x - y + 1) * 2 ^ y := by rw [← zpow_add₀ h2]; congr 1; omega
      _ ≤ _ := by apply mul_le_mul_of_nonneg_left lb; positivity
  have hlow : (2 : Rat) ^ (x - y - 1) ≤ a / b := by
    rw [le_div_iff₀ hb']
    calc (2 : Rat) ^ (x - y - 1) * b ≤ 2 ^ (x - y - 1) * 2 ^ (y + 1) := by
            apply mul_le_mul_of_nonneg_left (le_of_lt lb'); positivity
      _ = 2 ^ x := by rw [← zpow_add₀ h2]; congr 1; omega
      _ ≤ _ := la
  have hc : ∀ e : Int, (0 ≤ e → (a < b * 2 ^ e.toNat ↔ (a : Rat) / b < 2 ^ e)) ∧
      (¬ 0 ≤ e → (a * 2 ^ (-e).toNat < b ↔ (a : Rat) / b < 2 ^ e)) := by
    intro e
    constructor
    · intro he
      rw [div_lt_iff₀ hb', ← zpow_toNat he, mul_comm (_ ^ _) (b : Rat)]
      exact_mod_cast Iff.rfl
    · intro he
      have hp : (0 : Rat) < 2 ^ e := by positivity
      have : (a : Rat) / b < 2 ^ e ↔ (a : Rat) * (2 ^ (-e).toNat) < b := by
        rw [div_lt_iff₀ hb', zpow_toNat_neg (by omega), ← div_eq_mul_inv, div_lt_iff₀ hp, mul_comm]
      rw [this]
      exact_mod_cast Iff.rfl
  simp only [flog, hx, hy]
  by_cases he : 0 ≤ x - y
  · rw [if_pos he]
    by_cases h : (a : Rat) / b < 2 ^ (x - y)
    · rw [if_pos (((hc _).1 he).2 h)]
      exact ⟨hlow, by rw [show x - y - 1 + 1 = x - y by omega]; exact h⟩
    · rw [if_neg (mt ((hc _).1 he).1 h)]
      exact ⟨not_lt.1 h, hup⟩
  · rw [if_neg he]
    by_cases h : (a : Rat) / b < 2 ^ (x - y)
    · rw [if_pos (((hc _).2 he).2 h)]
      exact ⟨hlow, by rw [show x - y - 1 + 1 = x - y by omega]; exact h⟩
    · rw [if_neg (mt ((hc _).2 he).1 h)]
      exact ⟨not_lt.1 h, hup⟩

/-- `roundNat` is a multiple of the last bit, and no other multiple is nearer. -/
theorem roundNat_spec {a b : Nat} (hb : 0 < b) :
    ∃ m : Nat, roundNat a b = m * 2 ^ ulp a b ∧
      ∀ z : Int, |(m : Rat) * 2 ^ ulp a b - a / b| ≤ |(z : Rat) * 2 ^ ulp a b - a / b| := by
  have hb' : (0 : Rat) < b := by exact_mod_cast hb
  generalize hk : ulp a b = k
  have hp : (0 : Rat) < 2 ^ k := by positivity
  have key : ∀ a' b' : Nat, 0 < b' → (a' : Rat) / b' = a / b / 2 ^ k →
      ∀ z : Int, |(divEven a' b' : Rat) * 2 ^ k - a / b| ≤ |(z : Rat) * 2 ^ k - a / b| := by
    intro a' b' hb2 he z
    have h := divEven_nearest (a := a') hb2 z
    rw [he] at h
    have e : ∀ y : Rat, |y * 2 ^ k - a / b| = |y - a / b / 2 ^ k| * 2 ^ k := by
      intro y
      have : y * 2 ^ k - a / b = (y - a / b / 2 ^ k) * 2 ^ k := by
        rw [sub_mul, div_mul_cancel₀ _ (ne_of_gt hp)]
      rw [this, abs_mul, abs_of_pos hp]
    rw [e, e]
    exact mul_le_mul_of_nonneg_right h (le_of_lt hp)
  simp only [roundNat, hk]
  by_cases h0 : 0 ≤ k
  · rw [if_pos h0]
    refine ⟨divEven a (b * 2 ^ k.toNat), by rw [zpow_toNat h0], key _ _ (by positivity) ?_⟩
    push_cast
    rw [zpow_toNat h0, div_div]
  · rw [if_neg h0]
    refine ⟨divEven (a * 2 ^ (-k).toNat) b, ?_, key _ _ hb ?_⟩
    · rw [zpow_toNat_neg (by omega), div_inv_eq_mul]
    · push_cast
      rw [zpow_toNat_neg (by omega), ← div_eq_mul_inv]
      field_simp

theorem abs_eq_div (q : Rat) : |q| = (q.num.natAbs : Rat) / q.den := by
  have := Rat.num_div_den q
  conv_lhs => rw [← this]
  rw [abs_div, Nat.abs_cast]
  congr 1
  rw [← Int.cast_abs, Int.abs_eq_natAbs, Int.cast_natCast]

/-- A multiple of the unit with 53 bits is not rounded. -/
theorem roundNat_exact {a b : Nat} (ha : 0 < a) (hb : 0 < b) {z k : Int}
    (h : (a : Rat) / b = z * 2 ^ k) (hz : |z| < 2 ^ 53) (hk : -1074 ≤ k) :
    roundNat a b = a / b := by
  have h2 : (2 : Rat) ≠ 0 := by norm_num
  have hq : (0 : Rat) < a / b := by
    apply div_pos <;> exact_mod_cast (by assumption)
  have hlt : (a : Rat) / b < 2 ^ (53 + k) := by
    rw [h, zpow_add₀ h2]
    apply mul_lt_mul_of_pos_right _ (by positivity)
    have : z < 2 ^ 53 := lt_of_le_of_lt (le_abs_self z) hz
    exact_mod_cast this
  have hfl : flog a b < 53 + k := by
    have := lt_of_le_of_lt (flog_spec ha hb).1 hlt
    exact (zpow_lt_zpow_iff_right₀ (by norm_num)).1 this
  have hu : ulp a b ≤ k := by rw [ulp_eq]; omega
  obtain ⟨m, h1, h3⟩ := roundNat_spec (a := a) hb
  have hm := h3 (z * 2 ^ (k - ulp a b).toNat)
  have : ((z * 2 ^ (k - ulp a b).toNat : Int) : Rat) * 2 ^ ulp a b = a / b := by
    push_cast
    rw [zpow_toNat (by omega), h, mul_assoc, ← zpow_add₀ h2]
    congr 2; omega
  rw [this, sub_self, abs_zero] at hm
  have := abs_nonpos_iff.1 hm
  rw [h1]; linarith

theorem natAbs_pos {q : Rat} (h : q ≠ 0) : 0 < q.num.natAbs :=
  Int.natAbs_pos.2 (mt Rat.num_eq_zero.1 h)

theorem sign_mul {q : Rat} : (if q < 0 then -|q| else |q|) = q := by
  by_cases h : q < 0
  · rw [if_pos h, abs_of_neg h, neg_neg]
  · rw [if_neg h, abs_of_nonneg (not_lt.1 h)]

/-- Binary64 numbers are not rounded. -/
theorem round_fin64 {q : Rat} (h : Binary64 q) : round q = fin q := by
  obtain ⟨z, k, h1, h2, h3, h4⟩ := h
  by_cases h0 : q = 0
  · rw [h0]; rfl
  have hr : roundNat q.num.natAbs q.den = |q| := by
    rw [abs_eq_div]
    refine roundNat_exact (natAbs_pos h0) q.den_pos (z := |z|) (k := k) ?_ (by rwa [abs_abs]) h3
    rw [← abs_eq_div, h1, abs_mul, abs_of_pos (by positivity : (0 : Rat) < 2 ^ k), Int.cast_abs]
  unfold round
  rw [if_neg h0]
  simp only [hr]
  rw [if_pos h4, sign_mul]

/-- `roundNat` is a number with 53 bits. -/
theorem roundNat_fin {a b : Nat} (ha : 0 < a) (hb : 0 < b) :
    ∃ z k : Int, roundNat a b = z * 2 ^ k ∧ |z| < 2 ^ 53 ∧ -1074 ≤ k := by
  have h2 : (2 : Rat) ≠ 0 := by norm_num
  obtain ⟨m, h1, h3⟩ := roundNat_spec (a := a) hb
  have hp : (0 : Rat) < 2 ^ ulp a b := by positivity
  have hk : -1074 ≤ ulp a b := by rw [ulp_eq]; omega
  have hlt : (a : Rat) / b < 2 ^ (53 + ulp a b) := by
    refine lt_of_lt_of_le (flog_spec ha hb).2 ?_
    exact zpow_le_zpow_right₀ (by norm_num) (by rw [ulp_eq]; omega)
  have hm : m ≤ 2 ^ 53 := by
    have h4 := h3 (2 ^ 53)
    have hc : (((2 : Int) ^ 53 : Int) : Rat) * 2 ^ ulp a b = 2 ^ (53 + ulp a b) := by
      rw [zpow_add₀ h2]; norm_num
    rw [hc] at h4
    by_contra hcon
    have h5 : ((2 : Rat) ^ 53) < m := by
      have := not_le.1 hcon
      exact_mod_cast this
    have h6 : (2 : Rat) ^ (53 + ulp a b) < m * 2 ^ ulp a b := by
      rw [← hc]; push_cast
      exact mul_lt_mul_of_pos_right h5 hp
    rw [abs_of_pos (by linarith), abs_of_pos (by linarith)] at h4
    linarith
  rcases Nat.lt_or_ge m (2 ^ 53) with h | h
  · refine ⟨m, ulp a b, by rw [h1]; norm_cast, ?_, hk⟩
    rw [abs_of_nonneg (by omega)]; exact_mod_cast h
  · refine ⟨2 ^ 52, ulp a b + 1, ?_, by norm_num, by omega⟩
    have : m = 2 ^ 53 := le_antisymm hm h
    rw [h1, this, zpow_add₀ h2]
    push_cast
    ring

/-- No number with 53 bits is nearer. -/
theorem roundNat_nearest {a b : Nat} (ha : 0 < a) (hb : 0 < b) {x : Rat} {z k : Int}
    (h : x = z * 2 ^ k) (hz : |z| < 2 ^ 53) (hk : -1074 ≤ k) :
    |roundNat a b - a / b| ≤ |x - a / b| := by
  have h2 : (2 : Rat) ≠ 0 := by norm_num
  obtain ⟨m, h1, h3⟩ := roundNat_spec (a := a) hb
  rw [h1]
  rcases le_or_gt (ulp a b) k with hu | hu
  · have hm := h3 (z * 2 ^ (k - ulp a b).toNat)
    have : ((z * 2 ^ (k - ulp a b).toNat : Int) : Rat) * 2 ^ ulp a b = x := by
      push_cast
      rw [zpow_toNat (by omega), h, mul_assoc, ← zpow_add₀ h2]
      congr 2; omega
    rwa [this] at hm
  · have hue : ulp a b = flog a b - 52 := by
      have := ulp_eq a b
      omega
    have hm := h3 (2 ^ 52)
    have hc : (((2 : Int) ^ 52 : Int) : Rat) * 2 ^ ulp a b = 2 ^ flog a b := by
      rw [show flog a b = 52 + ulp a b by omega, zpow_add₀ h2]; norm_num
    rw [hc] at hm
    refine le_trans hm ?_
    have hf := (flog_spec ha hb).1
    have hx : |x| ≤ 2 ^ flog a b := by
      rw [h, abs_mul, abs_of_pos (by positivity : (0 : Rat) < 2 ^ k), ← Int.cast_abs]
      have h5 : ((|z| : Int) : Rat) ≤ 2 ^ 53 := by exact_mod_cast le_of_lt hz
      calc ((|z| : Int) : Rat) * 2 ^ k ≤ 2 ^ 53 * 2 ^ k := by
              apply mul_le_mul_of_nonneg_right h5; positivity
        _ = 2 ^ (53 + k) := by rw [zpow_add₀ h2]; norm_num
        _ ≤ _ := zpow_le_zpow_right₀ (by norm_num) (by omega)
    have hx' : x ≤ 2 ^ flog a b := le_trans (le_abs_self x) hx
    rw [abs_sub_comm, abs_of_nonneg (by linarith), abs_sub_comm, abs_of_nonneg (by linarith)]
    linarith

theorem neg_fin64 {q : Rat} (h : Binary64 q) : Binary64 (-q) := by
  obtain ⟨z, k, h1, h2, h3, h4⟩ := h
  exact ⟨-z, k, by rw [h1]; push_cast; ring, by rwa [abs_neg], h3, by rwa [abs_neg]⟩

/-- The result of rounding is a binary64 number, and no other one is nearer. -/
theorem round_spec {q r : Rat} (h : round q = fin r) :
    Binary64 r ∧ ∀ x, Binary64 x → |r - q| ≤ |x - q| := by
  by_cases h0 : q = 0
  · rw [h0] at h ⊢
    simp only [round, if_true] at h
    rw [← fin.inj h]
    refine ⟨⟨0, 0, by norm_num, by norm_num, by norm_num, by norm_num⟩, fun x _ => ?_⟩
    simp only [sub_zero, abs_zero]; exact abs_nonneg x
  unfold round at h
  rw [if_neg h0] at h
  simp only at h
  have ha := natAbs_pos h0
  have hb := q.den_pos
  obtain ⟨z, k, e1, e2, e3⟩ := roundNat_fin ha hb
  have hnear := fun (x : Rat) (z k : Int) => roundNat_nearest ha hb (x := x) (z := z) (k := k)
  rw [← abs_eq_div] at hnear
  have hr0 : 0 ≤ roundNat q.num.natAbs q.den := by
    have := roundNat_nearest ha hb (x := 0) (z := 0) (k := 0) (by norm_num) (by norm_num)
      (by norm_num)
    rw [← abs_eq_div, zero_sub, abs_neg, abs_abs] at this
    have h4 := neg_abs_le (roundNat q.num.natAbs q.den - |q|)
    obtain ⟨m, h5, _⟩ := roundNat_spec (a := q.num.natAbs) hb
    rw [h5]; positivity
  split at h
  · rename_i hlt
    have hF : Binary64 (roundNat q.num.natAbs q.den) :=
      ⟨z, k, e1, e2, e3, by rwa [abs_of_nonneg hr0]⟩
    by_cases hneg : q < 0
    · rw [if_pos hneg] at h
      rw [← fin.inj h]
      refine ⟨neg_fin64 hF, ?_⟩
      rintro x hx
      obtain ⟨z', k', x1, x2, x3, _⟩ := neg_fin64 hx
      have := hnear (-x) z' k' x1 x2 x3
      rw [abs_of_neg hneg] at this
      rw [show -roundNat q.num.natAbs q.den - q = -(roundNat q.num.natAbs q.den - -q) by ring,
        show x - q = -(-x - -q) by ring, abs_neg, abs_neg]
      exact this
    · rw [if_neg hneg] at h
      rw [← fin.inj h]
      refine ⟨hF, ?_⟩
      rintro x ⟨z', k', x1, x2, x3, _⟩
      have := hnear x z' k' x1 x2 x3
      rwa [abs_of_nonneg (not_lt.1 hneg)] at this
  · exact absurd h (by simp)

theorem round_eq_fin {q : Rat} : round q = fin q ↔ Binary64 q :=
  ⟨fun h => (round_spec h).1, round_fin64⟩

/-- Integer multiples of a power of two. -/
theorem fin64_mul {z k : Int} (hz : |z| ≤ 2 ^ 53) (hk : -1074 ≤ k) (hk' : k ≤ 970) :
    Binary64 (z * 2 ^ k) := by
  have h2 : (2 : Rat) ≠ 0 := by norm_num
  have hb : |(z : Rat) * 2 ^ k| < 2 ^ 1024 := by
    rw [abs_mul, abs_of_pos (by positivity : (0 : Rat) < 2 ^ k), ← Int.cast_abs]
    have h5 : ((|z| : Int) : Rat) ≤ 2 ^ 53 := by exact_mod_cast hz
    calc ((|z| : Int) : Rat) * 2 ^ k ≤ 2 ^ 53 * 2 ^ k := by
            apply mul_le_mul_of_nonneg_right h5; positivity
      _ = 2 ^ (53 + k) := by rw [zpow_add₀ h2]; norm_num
      _ < 2 ^ (1024 : Int) := zpow_lt_zpow_right₀ (by norm_num) (by omega)
      _ = _ := by norm_num
  rcases lt_or_eq_of_le hz with h | h
  · exact ⟨z, k, rfl, h, hk, hb⟩
  · rcases abs_eq (by norm_num) |>.1 h with h | h
    · refine ⟨2 ^ 52, k + 1, ?_, by norm_num, by omega, hb⟩
      rw [h, zpow_add₀ h2]; push_cast; ring
    · refine ⟨-2 ^ 52, k + 1, ?_, by norm_num, by omega, hb⟩
      rw [h, zpow_add₀ h2]; push_cast; ring

end Dbl

end CM
