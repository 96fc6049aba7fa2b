import Verif.Lemmas.Euclid
import Verif.Props.Metric

/-!
# C72, C73: the default distance is the Euclidean one, and rigid motions are found

For points with fixed-point coordinates, for example pixels.  `sqDist`, `CorrectRoot` and `scaled`
are defined in `SpecEuclid.lean`.
-/

namespace CM

open Spec Graph Sample

variable {M N : Nat}

theorem sqs_le {k : Int} {p q : List Int}
    (h : sqDist (scaled k p) (scaled k q) ≤ 2 ^ (53 + 2 * k)) : (Dbl.sqs p q).sum ≤ 2 ^ 53 := by
  rw [Dbl.sqDist_scaled, zpow_add₀ (by norm_num)] at h
  have h2 : (((Dbl.sqs p q).sum : Nat) : Rat) ≤ 2 ^ (53 : Int) :=
    le_of_mul_le_mul_right h (by positivity)
  have h3 : (((Dbl.sqs p q).sum : Nat) : Rat) ≤ ((2 ^ 53 : Nat) : Rat) := by
    refine le_trans h2 (le_of_eq ?_); norm_num
  exact Nat.cast_le.1 h3

/-- **C72**: the default distance is the Euclidean distance.  If the coordinates of two points are
integers, or multiples of some power of two, and the square of their distance is at most `2 ^ 53`
(in units of the squared power of two), then it is computed without rounding, in whichever order
the squares are added up, and the distance is what the square root gives for it. -/
theorem C72_euclidean {sum : List Dbl → Dbl} (hsum : ∀ l, SumOf l (sum l)) (sqrt : Dbl → Dbl)
    {k : Int} (hk : -537 ≤ k) (hk' : k ≤ 485) {p q : List Int}
    (h : sqDist (scaled k p) (scaled k q) ≤ 2 ^ (53 + 2 * k)) :
    eucDist sum sqrt ((scaled k p).map .fin) ((scaled k q).map .fin) =
      sqrt (.fin (sqDist (scaled k p) (scaled k q))) :=
  Dbl.eucDist_scaled hsum sqrt hk hk' (sqs_le h)

theorem sqDist_nonneg (p q : List Rat) : 0 ≤ sqDist p q := by
  unfold sqDist
  refine List.sum_nonneg fun x hx => ?_
  obtain ⟨i, hi, rfl⟩ := List.mem_iff_getElem.1 hx
  rw [List.getElem_zipWith]
  positivity

theorem sqDist_binary64 {k : Int} (hk : -537 ≤ k) (hk' : k ≤ 485) {p q : List Int}
    (h : sqDist (scaled k p) (scaled k q) ≤ 2 ^ (53 + 2 * k)) :
    Binary64 (sqDist (scaled k p) (scaled k q)) := by
  rw [Dbl.sqDist_scaled, ← Int.cast_natCast]
  refine Dbl.fin64_mul ?_ (by omega) (by omega)
  rw [abs_of_nonneg (by positivity)]
  exact_mod_cast sqs_le h

/-- **C72**: if moreover the square root is the one of IEEE 754, then the distance is the `double`
nearest to the Euclidean distance. -/
theorem C72_nearest {sum : List Dbl → Dbl} (hsum : ∀ l, SumOf l (sum l)) {sqrt : Dbl → Dbl}
    (hroot : CorrectRoot sqrt) {k : Int} (hk : -537 ≤ k) (hk' : k ≤ 485) {p q : List Int}
    (h : sqDist (scaled k p) (scaled k q) ≤ 2 ^ (53 + 2 * k)) :
    ∃ y : Rat, eucDist sum sqrt ((scaled k p).map .fin) ((scaled k q).map .fin) = .fin y ∧
      Binary64 y ∧ ∀ z : Rat, Binary64 z →
        |(y : ℝ) - √(sqDist (scaled k p) (scaled k q) : ℝ)| ≤
          |(z : ℝ) - √(sqDist (scaled k p) (scaled k q) : ℝ)| := by
  rw [C72_euclidean hsum sqrt hk hk' h]
  exact hroot _ (sqDist_nonneg _ _) (sqDist_binary64 hk hk' h)

/-- A correct root is not negative, and not above a `double` the root is not above. -/
theorem root_le {x y z : Rat} (h0 : Binary64 0) (hz : Binary64 z)
    (hy : ∀ z : Rat, Binary64 z → |(y : ℝ) - √(x : ℝ)| ≤ |(z : ℝ) - √(x : ℝ)|)
    (h : x ≤ z ^ 2) (hz0 : 0 ≤ z) : 0 ≤ y ∧ y ≤ z := by
  have hr : √(x : ℝ) ≤ z := Real.sqrt_le_iff.2 ⟨by exact_mod_cast hz0, by exact_mod_cast h⟩
  have hn := Real.sqrt_nonneg (x : ℝ)
  have a := hy z hz
  have b := hy 0 h0
  rw [abs_of_nonneg (by linarith : (0 : ℝ) ≤ z - √x)] at a
  rw [Rat.cast_zero, zero_sub, abs_neg, abs_of_nonneg hn] at b
  have c := (abs_le.1 a).2
  have d := (abs_le.1 b).1
  exact ⟨by exact_mod_cast (by linarith : (0 : ℝ) ≤ y), by exact_mod_cast (by linarith : (y : ℝ) ≤ z)⟩

theorem binary64_zpow {k : Int} (hk : -1074 ≤ k) (hk' : k ≤ 970) : Binary64 (2 ^ k) := by
  have := Dbl.fin64_mul (z := 1) (k := k) (by norm_num) hk hk'
  rwa [Int.cast_one, one_mul] at this

/-- **C73** for rigid motions: let the points `q i` have the Euclidean distances of the points
`p i`, as after any translation, rotation or reflection, all with fixed-point coordinates.  If the
second array contains these points, in any order and together with any other points, and the
tolerance is at least `2 ^ -20` units, then `A2AGraph(S1, S2, epsilon).build_edges()` and
`get_correspondence()` match every point of the first array. -/
theorem C73_rigid {argLR : Bool} {cap : Nat}
    {srt1 srt2 : List (PairDist Dist) → List (PairDist Dist)} {ε : Rat}
    {sum : List Dbl → Dbl} (hsum : ∀ l, SumOf l (sum l)) {sqrt : Dbl → Dbl}
    (hsqrt : ∀ x : Dbl, .fin 0 ≤ x → .fin 0 ≤ sqrt x) (hroot : CorrectRoot sqrt)
    {sym1 sym2 : Bool} (hM : 2 ≤ M) (hu : M ≤ 65535)
    (hb : M * N < 2 ^ 27) (hs1 : Sorts srt1) (hs2 : Sorts srt2)
    {k : Int} (hk : -537 ≤ k) (hk' : k ≤ 485) (p q : Nat → List Int) (rows2 : Nat → List Rat)
    {σ : Nat → Nat} (hσ : Embeds M N σ) (hq : ∀ i, i < M → rows2 (σ i) = scaled k (q i))
    (hd : ∀ i j, i < M → j < M →
      sqDist (scaled k (q i)) (scaled k (q j)) = sqDist (scaled k (p i)) (scaled k (p j)))
    (hsmall : ∀ i j, i < M → j < M →
      sqDist (scaled k (p i)) (scaled k (p j)) ≤ 2 ^ (53 + 2 * k))
    (hε : Binary64 ε) (hε1 : 2 ^ (k - 20) ≤ ε) (hε2 : ε ≤ 2 ^ 1000) :
    ∃ o, (GenObj.init M N none none sym1 sym2 (dblWindow ε)).buildEdges argLR cap srt1 srt2
        (defaultDist sum sqrt fun i => (scaled k (p i)).map .fin)
        (defaultDist sum sqrt fun i => (rows2 i).map .fin) = .ok o ∧
      (BufferKept o.pg → ∀ srt : List VData → List VData, (∀ l, (srt l).Perm l) →
        ∃ pg' f s, o.pg.getCorrespondence srt N {} = .ok (pg', .ret (f, s)) ∧
          f.Perm (List.range M) ∧ s.length = M ∧ s.Nodup ∧ ∀ j ∈ s, j < N) := by
  have b0 : Binary64 0 := ⟨0, 0, by simp, by simp, by simp, by
    rw [abs_zero]; positivity⟩
  have h0 : sqrt (.fin 0) = .fin 0 := by
    obtain ⟨y, e1, _, e3⟩ := hroot 0 (le_refl _) b0
    have := root_le b0 b0 e3 (by norm_num) (le_refl _)
    rw [e1, le_antisymm this.2 this.1]
  refine C73_same_distances hsum hsqrt h0 (fun i => scaled k (p i)) rows2 hM hu hb hs1 hs2 hε hσ
    (fun i j hi hj _ => ?_) fun i j hi hj _ => ?_
  · rw [hq i hi, hq j hj, C72_euclidean hsum sqrt hk hk' (hsmall i j hi hj),
      C72_euclidean hsum sqrt hk hk' (by rw [hd i j hi hj]; exact hsmall i j hi hj), hd i j hi hj]
  · obtain ⟨y, e1, e2, e3⟩ := C72_nearest hsum hroot hk hk' (hsmall i j hi hj)
    refine ⟨y, e2, Or.inl ?_, e1⟩
    have hp : (0 : Rat) < 2 ^ k := by positivity
    have hz : (2 : Rat) ^ (27 + k) = 2 ^ (27 : Int) * 2 ^ k := zpow_add₀ (by norm_num) _ _
    obtain ⟨y0, y1⟩ := root_le b0 (binary64_zpow (k := 27 + k) (by omega) (by omega)) e3 (by
      refine le_trans (hsmall i j hi hj) ?_
      rw [← zpow_natCast, ← zpow_mul]
      exact zpow_le_zpow_right₀ (by norm_num) (by push_cast; omega)) (by positivity)
    have hε0 : 0 < ε := lt_of_lt_of_le (by positivity) hε1
    rw [hz] at y1
    rw [sub_self, abs_zero, abs_of_nonneg y0, abs_of_pos hε0]
    constructor
    · rw [zpow_sub₀ (by norm_num)] at hε1
      norm_num at y1 hε1 ⊢
      generalize (2 : Rat) ^ k = u at *
      linarith
    · have hy : y ≤ 2 ^ 512 := by
        refine le_trans (hz ▸ y1) ?_
        rw [← zpow_natCast]
        exact zpow_le_zpow_right₀ (by norm_num) (by push_cast; omega)
      have h1 : (2 : Rat) ^ 512 ≤ 2 ^ 1000 := pow_le_pow_right₀ (by norm_num) (by decide)
      have h2 : (2 : Rat) ^ 1000 * 2 ≤ 2 ^ 1021 := by
        rw [← pow_succ]; exact pow_le_pow_right₀ (by norm_num) (by decide)
      generalize (2 : Rat) ^ 1000 = u at *
      generalize (2 : Rat) ^ 1021 = v at *
      generalize (2 : Rat) ^ 512 = t at *
      linarith

/-! ## The hypotheses are met -/

/-- There are finitely many finite `double`s. -/
theorem binary64_finite : {q : Rat | Binary64 q}.Finite := by
  refine ((Set.finite_Icc (-(2 ^ 1024 * 2 ^ 1074) : Int) (2 ^ 1024 * 2 ^ 1074)).image
    fun z : Int => (z : Rat) * 2 ^ (-1074 : Int)).subset fun q hq => ?_
  obtain ⟨z, hz⟩ := Dbl.fin64_multiple hq
  refine ⟨z, ?_, hz.symm⟩
  obtain ⟨_, _, _, _, _, hlt⟩ := hq
  have e : (z : Rat) = q * 2 ^ 1074 := by
    rw [hz, mul_assoc, ← zpow_natCast, ← zpow_add₀ (by norm_num)]; norm_num
  have hlt' := abs_le.1 hlt.le
  have hp : (0 : Rat) < 2 ^ 1074 := by positivity
  rw [Set.mem_Icc]
  constructor
  · have : (((-(2 ^ 1024 * 2 ^ 1074) : Int)) : Rat) ≤ z := by
      rw [e]; push_cast; rw [← neg_mul]
      exact mul_le_mul_of_nonneg_right hlt'.1 hp.le
    exact Int.cast_le.1 this
  · have : (z : Rat) ≤ (((2 ^ 1024 * 2 ^ 1074 : Int)) : Rat) := by
      rw [e]; push_cast
      exact mul_le_mul_of_nonneg_right hlt'.2 hp.le
    exact Int.cast_le.1 this

/-- There is a correct square root. -/
theorem correctRoot_exists : ∃ sqrt : Dbl → Dbl, CorrectRoot sqrt ∧
    ∀ x : Dbl, .fin 0 ≤ x → .fin 0 ≤ sqrt x := by
  have b0 : Binary64 0 := ⟨0, 0, by simp, by simp, by simp, by rw [abs_zero]; positivity⟩
  have near : ∀ x : Rat, ∃ y : Rat, Binary64 y ∧
      ∀ z : Rat, Binary64 z → |(y : ℝ) - √(x : ℝ)| ≤ |(z : ℝ) - √(x : ℝ)| := fun x =>
    Set.exists_min_image _ (fun y : Rat => |(y : ℝ) - √(x : ℝ)|) binary64_finite ⟨0, b0⟩
  choose f h1 h2 using near
  have pos : ∀ x, 0 ≤ f x := by
    intro x
    have h := h2 x 0 b0
    have hn := Real.sqrt_nonneg (x : ℝ)
    rw [Rat.cast_zero, zero_sub, abs_neg, abs_of_nonneg hn] at h
    have := (abs_le.1 h).1
    exact_mod_cast (by linarith : (0 : ℝ) ≤ f x)
  refine ⟨fun
    | .fin x => .fin (f x)
    | y => y, fun x _ _ => ⟨f x, rfl, h1 x, h2 x⟩, fun x hx => ?_⟩
  cases x with
  | fin x => exact Dbl.fin_le_fin.2 (pos x)
  | inf s => exact hx
  | nan => exact hx

namespace Sample

/-- The corners of a right triangle. -/
def tri (i : Nat) : List Int := ([[0, 0], [3, 0], [0, 4]] : List (List Int))[i]?.getD []

/-- The triangle turned by a right angle and moved. -/
def triTurned (i : Nat) : List Int :=
  ([[10, 10], [10, 13], [6, 10]] : List (List Int))[i]?.getD []

/-- The turned triangle, in half units, in another order and with another point. -/
def triRows (i : Nat) : List Rat :=
  ([[3, 5], [1 / 3, 8], [5, 5], [5, 13 / 2]] : List (List Rat))[i]?.getD []

end Sample

/-- `C72_nearest` for the points (0, 0) and (3 / 2, 2): their distance is exactly 5 / 2. -/
example {sum : List Dbl → Dbl} (hsum : ∀ l, SumOf l (sum l)) {sqrt : Dbl → Dbl}
    (hroot : CorrectRoot sqrt) :
    eucDist sum sqrt ([0, 0].map .fin) ([3 / 2, 2].map .fin) = .fin (5 / 2) := by
  have e1 : scaled (-1) [0, 0] = [0, 0] := by decide +kernel
  have e2 : scaled (-1) [3, 4] = [3 / 2, 2] := by decide +kernel
  have e3 : sqDist [0, 0] [3 / 2, 2] = (5 / 2) ^ 2 := by decide +kernel
  obtain ⟨y, h1, _, h3⟩ := C72_nearest hsum hroot (k := -1) (by decide) (by decide)
    (p := [0, 0]) (q := [3, 4]) (by rw [e1, e2, e3]; norm_num)
  rw [e1, e2] at h1
  rw [e1, e2, e3] at h3
  have b : Binary64 (5 / 2) := (Dbl.round_spec (by decide +kernel : Dbl.round (5 / 2) = .fin _)).1
  have h := h3 _ b
  have e4 : √(((5 / 2 : Rat) ^ 2 : Rat) : ℝ) = ((5 / 2 : Rat) : ℝ) := by
    rw [Rat.cast_pow]; exact Real.sqrt_sq (by norm_num)
  rw [e4, sub_self, abs_zero] at h
  have h5 := sub_eq_zero.1 (abs_eq_zero.1 (le_antisymm h (abs_nonneg _)))
  rw [h1, Rat.cast_injective h5]

/-- The hypotheses of `C73_rigid` are met for the triangle, with tolerance `1 / 4`. -/
example : Embeds 3 4 place ∧ (∀ i, i < 3 → triRows (place i) = scaled (-1) (triTurned i)) ∧
    (∀ i j, i < 3 → j < 3 → sqDist (scaled (-1) (triTurned i)) (scaled (-1) (triTurned j)) =
      sqDist (scaled (-1) (tri i)) (scaled (-1) (tri j))) ∧
    (∀ i j, i < 3 → j < 3 →
      sqDist (scaled (-1) (tri i)) (scaled (-1) (tri j)) ≤ 2 ^ (53 + 2 * (-1) : Int)) ∧
    Binary64 (1 / 4) ∧ (2 : Rat) ^ (-1 - 20 : Int) ≤ 1 / 4 ∧ (1 / 4 : Rat) ≤ 2 ^ 1000 ∧
    ∃ sqrt : Dbl → Dbl, CorrectRoot sqrt ∧ ∀ x : Dbl, .fin 0 ≤ x → .fin 0 ≤ sqrt x := by
  have e : ∀ i, i < 3 → ∀ j, j < 3 → sqDist (scaled (-1) (triTurned i)) (scaled (-1) (triTurned j)) =
      sqDist (scaled (-1) (tri i)) (scaled (-1) (tri j)) := by decide +kernel
  have b : ∀ i, i < 3 → ∀ j, j < 3 →
      sqDist (scaled (-1) (tri i)) (scaled (-1) (tri j)) ≤ 2 ^ (53 + 2 * (-1) : Int) := by
    decide +kernel
  refine ⟨place_embeds, by decide +kernel, fun i j hi hj => e i hi j hj,
    fun i j hi hj => b i hi j hj, (Dbl.round_spec (by decide +kernel : Dbl.round (1 / 4) = .fin _)).1, by norm_num, ?_,
    correctRoot_exists⟩
  exact le_trans (by norm_num) (one_le_pow₀ (by norm_num : (1 : Rat) ≤ 2))

end CM
