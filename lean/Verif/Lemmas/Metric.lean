import Verif.SpecMetric
import Verif.Lemmas.DblRound
import Mathlib.Order.Monotone.Defs
import Mathlib.Data.Rat.Floor

/-! # Arithmetic of distances -/

namespace CM

namespace Dbl

open Spec

/-! ## Signs -/

theorem neg_fin (q : Rat) : -fin q = fin (-q) := rfl

theorem round_neg (q : Rat) : round (-q) = -round q := by
  unfold round
  by_cases h0 : q = 0
  · subst h0; simp; rfl
  · rw [if_neg h0, if_neg (by simpa using h0)]
    simp only [Rat.num_neg_eq_neg_num, Int.natAbs_neg, Rat.den_neg_eq_den]
    by_cases hr : roundNat q.num.natAbs q.den < 2 ^ 1024
    · rw [if_pos hr, if_pos hr, neg_fin]
      rcases lt_or_gt_of_ne h0 with h | h
      · rw [if_neg (by linarith), if_pos h, neg_neg]
      · rw [if_pos (by linarith), if_neg (by linarith)]
    · rw [if_neg hr, if_neg hr]
      rcases lt_or_gt_of_ne h0 with h | h
      · have h1 : ¬ -q < 0 := by linarith
        simp [h, h1]; rfl
      · have h1 : -q < 0 := by linarith
        have h2 : ¬ q < 0 := by linarith
        simp [h1, h2]; rfl

theorem neg_neg' (x : Dbl) : -(-x) = x := by
  rcases x with a | s | _
  · simp [neg_fin]
  · change inf (!!s) = inf s; simp
  · rfl

theorem neg_add' (x y : Dbl) : -(x + y) = -x + -y := by
  rcases x with a | s | _ <;> rcases y with b | t | _
  · change -round (a + b) = round (-a + -b)
    rw [← round_neg]; congr 1; ring
  · rfl
  · rfl
  · rfl
  · cases s <;> cases t <;> rfl
  · rfl
  · rfl
  · rfl
  · rfl

theorem add_comm' (x y : Dbl) : x + y = y + x := by
  rcases x with a | s | _ <;> rcases y with b | t | _
  · change round (a + b) = round (b + a)
    rw [add_comm]
  · rfl
  · rfl
  · rfl
  · cases s <;> cases t <;> rfl
  · rfl
  · rfl
  · rfl
  · rfl

theorem sub_swap (x y : Dbl) : x - y = -(y - x) := by
  change x + -y = -(y + -x)
  rw [neg_add', neg_neg', add_comm']

theorem neg_mul_neg' (x : Dbl) : (-x) * (-x) = x * x := by
  rcases x with a | s | _
  · change round (-a * -a) = round (a * a)
    rw [neg_mul_neg]
  · change inf _ = inf _
    cases s <;> rfl
  · rfl

/-- The default distance does not depend on the order of the points. -/
theorem eucDist_comm (sum : List Dbl → Dbl) (sqrt : Dbl → Dbl) (p q : List Dbl) :
    eucDist sum sqrt p q = eucDist sum sqrt q p := by
  unfold eucDist
  congr 2
  induction p generalizing q with
  | nil => simp
  | cons a p ih =>
    cases q with
    | nil => simp
    | cons b q =>
      simp only [List.zipWith_cons_cons, List.map_cons, ih q]
      rw [sub_swap a b, neg_mul_neg']

/-! ## Rounding keeps the order -/

theorem near_mono {x y rx ry : Rat} (hx : |rx - x| ≤ |ry - x|) (hy : |ry - y| ≤ |rx - y|)
    (h : x < y) : rx ≤ ry := by
  by_contra hc
  have hc := not_le.1 hc
  have h1 := sq_le_sq.2 hx
  have h2 := sq_le_sq.2 hy
  nlinarith

theorem roundNat_nonneg {a b : Nat} (hb : 0 < b) : 0 ≤ roundNat a b := by
  obtain ⟨m, h5, _⟩ := roundNat_spec (a := a) hb
  rw [h5]; positivity

theorem roundNat_mono {a b a' b' : Nat} (ha : 0 < a) (hb : 0 < b) (ha' : 0 < a') (hb' : 0 < b')
    (h : (a : Rat) / b < a' / b') : roundNat a b ≤ roundNat a' b' := by
  obtain ⟨z, k, e1, e2, e3⟩ := roundNat_fin ha hb
  obtain ⟨z', k', e1', e2', e3'⟩ := roundNat_fin ha' hb'
  exact near_mono (roundNat_nearest ha hb e1' e2' e3') (roundNat_nearest ha' hb' e1 e2 e3) h

/-- The magnitude of a number, rounded. -/
def mag (q : Rat) : Rat := roundNat q.num.natAbs q.den

theorem mag_nonneg (q : Rat) : 0 ≤ mag q := roundNat_nonneg q.den_pos

theorem mag_mono {x y : Rat} (hx : x ≠ 0) (h : |x| ≤ |y|) : mag x ≤ mag y := by
  have hy : y ≠ 0 := by rintro rfl; simp at h; exact hx h
  rcases lt_or_eq_of_le h with h | h
  · refine roundNat_mono (natAbs_pos hx) x.den_pos (natAbs_pos hy) y.den_pos ?_
    rwa [← abs_eq_div, ← abs_eq_div]
  · rcases abs_eq_abs.1 h with rfl | rfl
    · exact le_refl _
    · simp [mag]

theorem round_of_ne {q : Rat} (h : q ≠ 0) :
    round q = if mag q < 2 ^ 1024 then fin (if q < 0 then -mag q else mag q)
      else inf (decide (q < 0)) := by
  unfold round; rw [if_neg h]; rfl

theorem fin_le_fin {a b : Rat} : (fin a : Dbl) ≤ fin b ↔ a ≤ b := by
  change decide (a ≤ b) = true ↔ _
  exact decide_eq_true_iff

theorem fin_lt_fin {a b : Rat} : (fin a : Dbl) < fin b ↔ a < b := by
  change decide (a < b) = true ↔ _
  exact decide_eq_true_iff

theorem round_nonneg {q : Rat} (h : 0 ≤ q) : fin 0 ≤ round q := by
  by_cases h0 : q = 0
  · subst h0; exact fin_le_fin.2 (le_refl 0)
  · rw [round_of_ne h0, if_neg (not_lt.2 h)]
    split
    · exact fin_le_fin.2 (mag_nonneg q)
    · simp [not_lt.2 h]; rfl

theorem round_mono_pos {x y : Rat} (hx : 0 ≤ x) (h : x ≤ y) : round x ≤ round y := by
  by_cases h0 : x = 0
  · subst h0
    exact round_nonneg h
  have hx' : 0 < x := lt_of_le_of_ne hx (Ne.symm h0)
  have hy' : 0 < y := lt_of_lt_of_le hx' h
  have hm : mag x ≤ mag y := mag_mono h0 (by rw [abs_of_pos hx', abs_of_pos hy']; exact h)
  rw [round_of_ne h0, round_of_ne (ne_of_gt hy'), if_neg (not_lt.2 hx), if_neg (not_lt.2 (le_of_lt hy'))]
  simp only [not_lt.2 hx, not_lt.2 (le_of_lt hy'), decide_false]
  by_cases h2 : mag y < 2 ^ 1024
  · rw [if_pos h2, if_pos (lt_of_le_of_lt hm h2)]
    exact fin_le_fin.2 hm
  · rw [if_neg h2]
    split <;> rfl

theorem le_neg_neg {x y : Dbl} (h : x ≤ y) : -y ≤ -x := by
  rcases x with a | s | _ <;> rcases y with b | t | _
  · exact fin_le_fin.2 (neg_le_neg (fin_le_fin.1 h))
  · cases t
    · rfl
    · cases h
  · cases h
  · cases s
    · cases h
    · rfl
  · cases s <;> cases t <;> first | rfl | cases h
  · cases h
  · cases h
  · cases h
  · cases h

theorem dbl_le_trans {x y z : Dbl} (hx : x ≠ nan) (hy : y ≠ nan) (hz : z ≠ nan) (h1 : x ≤ y)
    (h2 : y ≤ z) : x ≤ z :=
  le_trans (a := (⟨x, hx⟩ : Dist)) (b := ⟨y, hy⟩) (c := ⟨z, hz⟩) h1 h2

/-- Rounding keeps the order. -/
theorem round_mono {x y : Rat} (h : x ≤ y) : round x ≤ round y := by
  rcases le_total 0 x with hx | hx
  · exact round_mono_pos hx h
  rcases le_total 0 y with hy | hy
  · have h1 := round_nonneg (q := -x) (by linarith)
    rw [round_neg] at h1
    have h2 := le_neg_neg h1
    rw [neg_neg'] at h2
    exact dbl_le_trans (round_ne_nan _) (by simp [neg_fin]) (round_ne_nan _) h2
      (by rw [neg_fin, neg_zero]; exact round_nonneg hy)
  · have h1 := round_mono_pos (x := -y) (y := -x) (by linarith) (by linarith)
    rw [round_neg, round_neg] at h1
    have h2 := le_neg_neg h1
    rwa [neg_neg', neg_neg'] at h2

/-- Adding a finite number keeps the order. -/
theorem add_fin_mono {x y : Dbl} (h : x ≤ y) (q : Rat) : x + fin q ≤ y + fin q := by
  rcases x with a | s | _ <;> rcases y with b | t | _
  · exact round_mono (by have := fin_le_fin.1 h; linarith)
  · cases t
    · change round (a + q) ≤ inf false
      have := round_ne_nan (a + q)
      rcases hr : round (a + q) with c | u | _
      · rfl
      · cases u <;> rfl
      · exact absurd hr this
    · cases h
  · cases h
  · cases s
    · cases h
    · change inf true ≤ round (b + q)
      have := round_ne_nan (b + q)
      rcases hr : round (b + q) with c | u | _
      · rfl
      · cases u <;> rfl
      · exact absurd hr this
  · exact h
  · cases h
  · cases h
  · cases h
  · cases h

/-! ## The error of one operation -/

theorem fin64_multiple {q : Rat} (h : Binary64 q) : ∃ z : Int, q = z * 2 ^ (-1074 : Int) := by
  obtain ⟨z, k, h1, _, h3, _⟩ := h
  refine ⟨z * 2 ^ (k + 1074).toNat, ?_⟩
  rw [Int.cast_mul, Int.cast_pow, Int.cast_ofNat, zpow_toNat (by omega), h1, mul_assoc, ← zpow_add₀ (by norm_num)]
  congr 2; omega

/-- The nearest multiple of a unit is at most half a unit away. -/
theorem half_near {u t m : Rat} (hu : 0 < u) (h : ∀ z : Int, |m * u - t| ≤ |(z : Rat) * u - t|) :
    |m * u - t| ≤ u / 2 := by
  have h1 := h ⌊t / u⌋
  have h3 := h (⌊t / u⌋ + 1)
  have f1 := Int.floor_le (t / u)
  have f2 := Int.lt_floor_add_one (t / u)
  rw [le_div_iff₀ hu] at f1
  rw [div_lt_iff₀ hu] at f2
  push_cast at h3
  generalize (⌊t / u⌋ : Rat) = f at *
  rw [abs_sub_comm (f * u), abs_of_nonneg (a := t - f * u) (by linarith)] at h1
  rw [abs_of_nonneg (a := (f + 1) * u - t) (by linarith)] at h3
  linarith

theorem unit_half (e : Int) : (2 : Rat) ^ (e - 52) * 2 ^ 53 = 2 ^ e * 2 := by
  have h2 : (2 : Rat) ≠ 0 := by norm_num
  rw [show (2 : Rat) ^ 53 = 2 ^ (53 : Int) by norm_num, ← zpow_add₀ h2, ← zpow_add_one₀ h2]
  congr 1; omega

/-- The sum of two `double`s that does not overflow is off by at most one part in `2 ^ 53`. -/
theorem round_error {s : Rat} (hz : ∃ z : Int, s = z * 2 ^ (-1074 : Int)) (hs : |s| ≤ 2 ^ 1023) :
    ∃ r, round s = fin r ∧ Binary64 r ∧ |r - s| ≤ |s| / 2 ^ 53 := by
  have h2 : (2 : Rat) ≠ 0 := by norm_num
  have pow_lt : (2 : Rat) ^ 1023 < 2 ^ 1024 := pow_lt_pow_right₀ (by norm_num) (by decide)
  by_cases h0 : s = 0
  · subst h0
    exact ⟨0, rfl, (round_spec (q := 0) rfl).1, by simp⟩
  have ha := natAbs_pos h0
  have hm : mag s ≤ 2 ^ 1023 := by
    have h1 : Binary64 ((2 : Rat) ^ 1023) := by
      refine ⟨1, 1023, ?_, by norm_num, by norm_num, ?_⟩
      · rw [Int.cast_one, one_mul]; exact (zpow_natCast (2 : Rat) 1023).symm
      · rw [abs_of_pos (by positivity)]; exact pow_lt
    generalize hP : (2 : Rat) ^ 1023 = P at *
    have hp : 0 < P := by rw [← hP]; positivity
    have h3 : mag s ≤ mag P := mag_mono h0 (by rw [abs_of_pos hp]; exact hs)
    have h4 : mag P = P := by
      obtain ⟨z, k, e1, e2, e3, _⟩ := h1
      have := roundNat_exact (natAbs_pos (ne_of_gt hp)) P.den_pos (z := z) (k := k)
        (by rw [← abs_eq_div, abs_of_pos hp]; exact e1) e2 e3
      unfold mag
      rw [this, ← abs_eq_div, abs_of_pos hp]
    rwa [h4] at h3
  have hlt : mag s < 2 ^ 1024 := lt_of_le_of_lt hm pow_lt
  have hr : round s = fin (if s < 0 then -mag s else mag s) := by
    rw [round_of_ne h0, if_pos hlt]
  refine ⟨_, hr, (round_spec hr).1, ?_⟩
  -- the magnitude
  have key : |mag s - abs s| ≤ |s| / 2 ^ 53 := by
    obtain ⟨m, e1, e2⟩ := roundNat_spec (a := s.num.natAbs) s.den_pos
    rw [← abs_eq_div] at e2
    have hf := flog_spec ha s.den_pos
    rw [← abs_eq_div] at hf
    change mag s = _ at e1
    rw [e1]
    have hp : (0 : Rat) < 2 ^ ulp s.num.natAbs s.den := by positivity
    rcases le_or_gt (flog s.num.natAbs s.den - 52) (-1074) with hu | hu
    · have hul : ulp s.num.natAbs s.den = -1074 := by rw [ulp_eq]; omega
      obtain ⟨z, hz⟩ := hz
      have := e2 |z|
      rw [hul] at this ⊢
      rw [show (((|z| : Int) : Rat)) * 2 ^ (-1074 : Int) = |s| by
        rw [hz, abs_mul, abs_of_pos (by positivity : (0 : Rat) < 2 ^ (-1074 : Int)), Int.cast_abs],
        sub_self, abs_zero] at this
      exact le_trans this (by positivity)
    · have hul : ulp s.num.natAbs s.den = flog s.num.natAbs s.den - 52 := by rw [ulp_eq]; omega
      rw [hul] at e2 hp ⊢
      generalize flog s.num.natAbs s.den = e at *
      -- the nearest multiple is at most half a unit away
      have hhalf := half_near hp e2
      refine le_trans hhalf ?_
      rw [div_le_div_iff₀ (by norm_num) (by positivity)]
      calc (2 : Rat) ^ (e - 52) * 2 ^ 53 = 2 ^ e * 2 := unit_half e
        _ ≤ |s| * 2 := mul_le_mul_of_nonneg_right hf.1 (by norm_num)
  by_cases hn : s < 0
  · rw [if_pos hn]
    rw [abs_of_neg hn] at key ⊢
    rw [show -mag s - s = -(mag s - -s) by ring, abs_neg]
    exact key
  · rw [if_neg hn]
    rw [abs_of_nonneg (not_lt.1 hn)] at key ⊢
    exact key

theorem fin64_add_multiple {x y : Rat} (hx : Binary64 x) (hy : Binary64 y) :
    ∃ z : Int, x + y = z * 2 ^ (-1074 : Int) := by
  obtain ⟨a, ha⟩ := fin64_multiple hx
  obtain ⟨b, hb⟩ := fin64_multiple hy
  exact ⟨a + b, by rw [ha, hb, Int.cast_add, add_mul]⟩

end Dbl

open Spec Dbl

/-- The lower end of the window is monotone in the distance. -/
theorem dblWindow_lo_mono (ε : Rat) : Monotone (dblWindow ε).lo := by
  intro a b h
  exact add_fin_mono (x := a.val) (y := b.val) h (-ε)

/-- The ends of the window are computed with a small error. -/
theorem dblWindow_near {x ε : Rat} (hx : Binary64 x) (hε : Binary64 ε)
    (hb : |x| + |ε| ≤ 2 ^ 1021) :
    ∃ r r', (.fin x - .fin ε : Dbl) = .fin r ∧ (.fin x - .fin ε + .fin (2 * ε) : Dbl) = .fin r' ∧
      |r - (x - ε)| ≤ (|x| + |ε|) / 2 ^ 50 ∧ |r' - (x + ε)| ≤ (|x| + |ε|) / 2 ^ 50 := by
  set B := |x| + |ε| with hB
  have h1 : |x - ε| ≤ B := by
    rw [hB]; exact abs_sub x ε
  have hB0 : 0 ≤ B := by positivity
  obtain ⟨r, e1, e2, e3⟩ := round_error (s := x + -ε) (fin64_add_multiple hx (neg_fin64 hε))
    (by rw [← sub_eq_add_neg]; exact le_trans h1 (le_trans hb
      (pow_le_pow_right₀ (by norm_num) (by decide))))
  rw [← sub_eq_add_neg] at e3
  have hlo : (.fin x - .fin ε : Dbl) = .fin r := e1
  have e3 := le_trans e3 (div_le_div_of_nonneg_right h1 (by positivity))
  have hr := abs_le.1 e3
  have hrB : |r| ≤ 2 * B := by
    have := abs_le.1 h1
    rw [abs_le]; constructor <;> linarith [hr.1, hr.2]
  obtain ⟨z1, hz1⟩ := fin64_multiple e2
  obtain ⟨z2, hz2⟩ := fin64_multiple hε
  have hεB : |ε| ≤ B := by rw [hB]; linarith [abs_nonneg x]
  have h4 : |r + 2 * ε| ≤ 4 * B := by
    have := abs_le.1 hrB
    have := abs_le.1 hεB
    rw [abs_le]; constructor <;> linarith
  obtain ⟨r', e1', e2', e3'⟩ := round_error (s := r + 2 * ε)
    ⟨z1 + 2 * z2, by rw [hz1, hz2, Int.cast_add, Int.cast_mul, add_mul, mul_assoc]; rfl⟩
    (le_trans (le_trans h4 (mul_le_mul_of_nonneg_left hb (by norm_num)))
      (le_of_eq (by rw [show (1023 : Nat) = 2 + 1021 from rfl, pow_add]; congr 1)))
  have hr' := abs_le.1 (le_trans e3' (div_le_div_of_nonneg_right h4 (by positivity)))
  refine ⟨r, r', hlo, by rw [hlo]; exact e1', ?_, ?_⟩
  · rw [abs_le]; constructor <;> linarith [hr.1, hr.2]
  · rw [abs_le]; constructor <;> linarith [hr.1, hr.2, hr'.1, hr'.2]

/-- A distance that is inside the window by a small margin is inside the computed window. -/
theorem dblWindow_inside {x ε y : Rat} (hx : Binary64 x) (hε : Binary64 ε) (hb : |x| + |ε| ≤ 2 ^ 1021)
    (h : |x - y| + (|x| + |ε|) / 2 ^ 50 < ε) :
    (.fin x - .fin ε : Dbl) < .fin y ∧ .fin y < (.fin x - .fin ε + .fin (2 * ε) : Dbl) := by
  obtain ⟨r, r', e1, e2, e3, e4⟩ := dblWindow_near hx hε hb
  have habs := abs_le.1 (le_refl |x - y|)
  have e3 := abs_le.1 e3
  have e4 := abs_le.1 e4
  rw [e2, e1, fin_lt_fin, fin_lt_fin]
  constructor <;> linarith [e3.1, e3.2, e4.1, e4.2, habs.1, habs.2]

/-- If the ends of the window are `double`s, they are computed exactly. -/
theorem dblWindow_exact {x ε : Rat} (h1 : Binary64 (x - ε)) (h2 : Binary64 (x + ε)) :
    (.fin x - .fin ε : Dbl) = .fin (x - ε) ∧
      (.fin x - .fin ε + .fin (2 * ε) : Dbl) = .fin (x + ε) := by
  have e1 : (.fin x - .fin ε : Dbl) = .fin (x - ε) := by
    change Dbl.round (x + -ε) = _
    rw [← sub_eq_add_neg]; exact round_fin64 h1
  refine ⟨e1, ?_⟩
  rw [e1]
  change Dbl.round (x - ε + 2 * ε) = _
  rw [show x - ε + 2 * ε = x + ε by ring]
  exact round_fin64 h2

/-! ## Sums of squares -/

namespace Dbl

theorem mul_self_nonneg {x : Dbl} (h : x ≠ nan) : fin 0 ≤ x * x := by
  rcases x with a | s | _
  · exact round_nonneg (_root_.mul_self_nonneg a)
  · cases s <;> rfl
  · exact absurd rfl h

theorem add_nonneg' {x y : Dbl} (hx : fin 0 ≤ x) (hy : fin 0 ≤ y) : fin 0 ≤ x + y := by
  rcases x with a | s | _ <;> rcases y with b | t | _
  · exact round_nonneg (add_nonneg (fin_le_fin.1 hx) (fin_le_fin.1 hy))
  · exact hy
  · cases hy
  · exact hx
  · cases s
    · cases t
      · rfl
      · exact absurd hy (by decide)
    · exact absurd hx (by decide)
  · cases hy
  · cases hx
  · cases hx
  · cases hx

theorem ne_nan_of_nonneg {x : Dbl} (h : fin 0 ≤ x) : x ≠ nan := by
  rintro rfl; cases h

theorem SumOf.nonneg {l : List Dbl} {r : Dbl} (h : SumOf l r) (hl : ∀ x ∈ l, fin 0 ≤ x) :
    fin 0 ≤ r := by
  induction h with
  | zero => exact fin_le_fin.2 (le_refl 0)
  | one x => exact hl x (by simp)
  | add _ _ hp ih1 ih2 =>
    exact add_nonneg' (ih1 fun x hx => hl x (hp.mem_iff.1 (List.mem_append_left _ hx)))
      (ih2 fun x hx => hl x (hp.mem_iff.1 (List.mem_append_right _ hx)))

theorem SumOf.zeros {l : List Dbl} {r : Dbl} (h : SumOf l r) (hl : ∀ x ∈ l, x = fin 0) :
    r = fin 0 := by
  induction h with
  | zero => rfl
  | one x => exact hl x (by simp)
  | add _ _ hp ih1 ih2 =>
    rw [ih1 fun x hx => hl x (hp.mem_iff.1 (List.mem_append_left _ hx)),
      ih2 fun x hx => hl x (hp.mem_iff.1 (List.mem_append_right _ hx))]
    change round (0 + 0) = _
    rw [add_zero]; rfl

/-- The squares of differences of finite numbers are not negative. -/
theorem squares_nonneg (p q : List Rat) :
    ∀ x ∈ (List.zipWith (fun a b : Dbl => a - b) (p.map fin) (q.map fin)).map (fun x => x * x),
      fin 0 ≤ x := by
  intro x hx
  obtain ⟨y, hy, rfl⟩ := List.mem_map.1 hx
  apply mul_self_nonneg
  rw [List.zipWith_map, List.mem_iff_getElem] at hy
  obtain ⟨i, hi, rfl⟩ := hy
  rw [List.getElem_zipWith]
  exact sub_fin_ne_nan (by simp) _

theorem squares_self (p : List Rat) :
    ∀ x ∈ (List.zipWith (fun a b : Dbl => a - b) (p.map fin) (p.map fin)).map (fun x => x * x),
      x = fin 0 := by
  intro x hx
  obtain ⟨y, hy, rfl⟩ := List.mem_map.1 hx
  rw [List.zipWith_map, List.mem_iff_getElem] at hy
  obtain ⟨i, hi, rfl⟩ := hy
  rw [List.getElem_zipWith]
  have : ∀ a : Rat, (fin a - fin a : Dbl) = fin 0 := by
    intro a
    change round (a + -a) = _
    rw [add_neg_cancel]; rfl
  rw [this]
  change round (0 * 0) = _
  rw [mul_zero]; rfl

end Dbl

/-- A distance that agrees within the tolerance is strictly inside the computed window. -/
theorem dblWindow_in {x ε y : Rat} (hx : Binary64 x) (hε : Binary64 ε) (h : Within ε x y) :
    (.fin x - .fin ε : Dbl) < .fin y ∧ .fin y < (.fin x - .fin ε + .fin (2 * ε) : Dbl) := by
  rcases h with ⟨h, hb⟩ | ⟨h, h1, h2⟩
  · exact dblWindow_inside hx hε hb h
  · obtain ⟨e1, e2⟩ := dblWindow_exact h1 h2
    have habs := abs_lt.1 h
    rw [e2, e1, fin_lt_fin, fin_lt_fin]
    constructor <;> linarith [habs.1, habs.2]

end CM
