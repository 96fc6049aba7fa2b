import Verif.Lemmas.Kabsch

/-!
# C74: the rotation and translation reported by `AlignGraph`

In exact arithmetic.  Rotations, best fits and what `np.linalg.svd` promises are specified in
`SpecKabsch.lean`.  `K` is any ordered field, so the real numbers or the rational numbers.
-/

namespace CM

open Spec Kabsch

section
variable {K : Type} [Field K] [LinearOrder K] [IsStrictOrderedRing K]
variable {svd : Mat K → Mat K × (K × K) × Mat K} {ms : List ((K × K) × (K × K))}

/-- **C74**: `rotmat` is a rotation, for all matched points and whichever of its possible results
`np.linalg.svd` returns. -/
theorem C74_is_rotation (hsvd : Decomposes svd (cross ms)) :
    IsRotation (transform svd ms).1 :=
  rotmat_rotation hsvd.left hsvd.right

omit [IsStrictOrderedRing K] in
/-- **C74**: the means of the matched points are moved onto each other by `rotmat` and
`(dx, dy)`. -/
theorem C74_means (svd : Mat K → Mat K × (K × K) × Mat K) (ms : List ((K × K) × (K × K))) :
    move (transform svd ms).1 (transform svd ms).2 (mean (ms.map Prod.fst)) =
      mean (ms.map Prod.snd) := by
  unfold transform move apply
  simp only
  ext <;> simp only <;> ring

/-- **C74**, as far as it is true.  The full property: `rotmat` and `(dx, dy)` move the matched
points of the first set as near as possible to those of the second one (in the sense of least
squares, among all rotations and translations).  Proved: this holds if the matrix `U` that
`np.linalg.svd` returns happens to be symmetric, for example a reflection.  Missing, because false
(`C74_refuted`): other `U`.  (The code transposes `U`, which numpy has transposed already.) -/
theorem C74_best_partial (hsvd : Decomposes svd (cross ms)) (h : ms ≠ [])
    (hsym : (svd (cross ms)).2.2.b = (svd (cross ms)).2.2.c) {R : Mat K} (hR : IsRotation R)
    (t : K × K) :
    misfit (transform svd ms).1 (transform svd ms).2 ms ≤ misfit R t ms := by
  rw [misfit_eq (C74_is_rotation hsvd) _ h, misfit_eq hR t h]
  have hb : dot R (cross ms) ≤ dot (transform svd ms).1 (cross ms) :=
    rotmat_best hsvd hsym hR
  have h0 : ((transform svd ms).2.1 - (-(apply (mean (ms.map Prod.fst)) (transform svd ms).1).1 +
      (mean (ms.map Prod.snd)).1)) = 0 := sub_self _
  have h1 : ((transform svd ms).2.2 - (-(apply (mean (ms.map Prod.fst)) (transform svd ms).1).2 +
      (mean (ms.map Prod.snd)).2)) = 0 := sub_self _
  rw [h0, h1]
  have h2 : 0 ≤ (ms.length : K) *
      ((t.1 - (-(apply (mean (ms.map Prod.fst)) R).1 + (mean (ms.map Prod.snd)).1)) ^ 2 +
       (t.2 - (-(apply (mean (ms.map Prod.fst)) R).2 + (mean (ms.map Prod.snd)).2)) ^ 2) := by
    positivity
  linarith

/-- **C74**, exactly when it is true: if the two singular values differ, `rotmat` and `(dx, dy)`
are the best fit if and only if `U` is symmetric.  (A reflection always is, a rotation only by 0 or
180 degrees; so which one numpy happens to return decides.) -/
theorem C74_exactly_partial (hsvd : Decomposes svd (cross ms)) (h : ms ≠ [])
    (hd : (svd (cross ms)).2.1.2 < (svd (cross ms)).2.1.1) :
    (∀ (R : Mat K) (t : K × K), IsRotation R →
      misfit (transform svd ms).1 (transform svd ms).2 ms ≤ misfit R t ms) ↔
    (svd (cross ms)).2.2.b = (svd (cross ms)).2.2.c := by
  constructor
  · intro hbest
    by_contra hsym
    have h0 := rotmat_worse hsvd hsym hd
    have hT : IsOrthogonal (svd (cross ms)).2.2.T := by
      obtain ⟨f, hf, u1, u2, _⟩ := orthogonal_cases hsvd.right
      have := hsvd.right.first
      have := hsvd.right.second
      rcases hf with rfl | rfl
      · refine ⟨?_, ?_, ?_⟩ <;> simp only [Mat.T, u1, u2] <;> linarith
      · refine ⟨?_, ?_, ?_⟩ <;> simp only [Mat.T, u1, u2] <;> linarith
    have hR := rotmat_rotation hsvd.left hT
    have h1 := hbest _ (-(apply (mean (ms.map Prod.fst)) (rotmat (svd (cross ms)).1
      (svd (cross ms)).2.2.T)).1 + (mean (ms.map Prod.snd)).1,
      -(apply (mean (ms.map Prod.fst)) (rotmat (svd (cross ms)).1
      (svd (cross ms)).2.2.T)).2 + (mean (ms.map Prod.snd)).2) hR
    rw [misfit_eq (C74_is_rotation hsvd) _ h, misfit_eq hR _ h] at h1
    simp only [sub_self] at h1
    have h2 : (0 : K) ≤ ms.length * (((transform svd ms).2.1 -
        (-(apply (mean (ms.map Prod.fst)) (transform svd ms).1).1 + (mean (ms.map Prod.snd)).1)) ^ 2 +
        ((transform svd ms).2.2 -
        (-(apply (mean (ms.map Prod.fst)) (transform svd ms).1).2 + (mean (ms.map Prod.snd)).2)) ^ 2) := by
      positivity
    have h3 : dot (transform svd ms).1 (cross ms) =
      dot (rotmat (svd (cross ms)).1 (svd (cross ms)).2.2) (cross ms) := rfl
    rw [h3] at h1
    linarith
  · intro hsym R t hR
    exact C74_best_partial hsvd h hsym hR t

/-- **C74** for points that can be moved onto each other exactly, as far as it is true: then
`rotmat` and `(dx, dy)` do so, again if `U` happens to be symmetric. -/
theorem C74_exact_partial (hsvd : Decomposes svd (cross ms))
    (hsym : (svd (cross ms)).2.2.b = (svd (cross ms)).2.2.c) {R : Mat K} (hR : IsRotation R)
    {t : K × K} (hex : ∀ m ∈ ms, move R t m.1 = m.2) :
    ∀ m ∈ ms, move (transform svd ms).1 (transform svd ms).2 m.1 = m.2 := by
  intro m hm
  have hne : ms ≠ [] := by rintro rfl; cases hm
  have h1 := C74_best_partial hsvd hne hsym hR t
  have h2 : misfit R t ms = 0 := by
    unfold misfit
    apply List.sum_eq_zero
    intro x hx
    obtain ⟨m', hm', rfl⟩ := List.mem_map.1 hx
    rw [hex m' hm']
    ring
  rw [h2] at h1
  generalize (transform svd ms).1 = R' at h1 ⊢
  generalize (transform svd ms).2 = t' at h1 ⊢
  have h3 : ∀ x ∈ ms.map (fun m => ((move R' t' m.1).1 - m.2.1) ^ 2 +
      ((move R' t' m.1).2 - m.2.2) ^ 2), 0 ≤ x := by
    intro x hx
    obtain ⟨m', _, rfl⟩ := List.mem_map.1 hx
    positivity
  have h4 := List.single_le_sum h3 _ (List.mem_map.2 ⟨m, hm, rfl⟩)
  have h5 := h4.trans h1
  have e1 : ((move R' t' m.1).1 - m.2.1) ^ 2 = 0 :=
    le_antisymm (by nlinarith [sq_nonneg ((move R' t' m.1).2 - m.2.2)]) (sq_nonneg _)
  have e2 : ((move R' t' m.1).2 - m.2.2) ^ 2 = 0 :=
    le_antisymm (by nlinarith [sq_nonneg ((move R' t' m.1).1 - m.2.1)]) (sq_nonneg _)
  exact Prod.ext (sub_eq_zero.1 (pow_eq_zero_iff (by decide) |>.1 e1))
    (sub_eq_zero.1 (pow_eq_zero_iff (by decide) |>.1 e2))

end

/-- **C74**: `theta` is the angle of `rotmat`. -/
theorem C74_theta {R : Mat ℝ} (hR : IsRotation R) :
    R = ⟨Real.cos (theta R), -Real.sin (theta R), Real.sin (theta R), Real.cos (theta R)⟩ := by
  obtain ⟨h1, h2, h3⟩ := hR
  have ha : -1 ≤ R.a ∧ R.a ≤ 1 := abs_le.1 (abs_le_one_iff_mul_self_le_one.2 (by nlinarith [sq_nonneg R.b]))
  have hcos : Real.cos (Real.arccos R.a) = R.a := Real.cos_arccos ha.1 ha.2
  have hsin : Real.sin (Real.arccos R.a) = |R.c| := by
    rw [Real.sin_arccos, ← Real.sqrt_sq_eq_abs]
    congr 1
    rw [h2]
    linear_combination -h3
  have hb : R.b = -R.c := by rw [h2, neg_neg]
  have key : Real.cos (theta R) = R.a ∧ Real.sin (theta R) = R.c := by
    unfold theta
    split
    · rename_i hneg
      rw [Real.cos_neg, Real.sin_neg, hcos, hsin, abs_of_neg hneg, neg_neg]
      exact ⟨rfl, rfl⟩
    · rename_i hneg
      rw [hcos, hsin, abs_of_nonneg (not_lt.1 hneg)]
      exact ⟨rfl, rfl⟩
  rw [key.1, key.2]
  cases R
  simp only at h1 hb
  rw [h1, hb]

namespace Sample

/-- A rotation by about 53 degrees. -/
def turn : Mat Rat := ⟨3 / 5, 4 / 5, -4 / 5, 3 / 5⟩

theorem turn_rotation : IsRotation turn := ⟨by decide +kernel, by decide +kernel, by decide +kernel⟩

/-- The corners of a rhombus, moved by `turn` and `(1, 1)`. -/
def rhombus : List ((Rat × Rat) × (Rat × Rat)) :=
  [(2, 0), (-2, 0), (0, 1), (0, -1)].map fun p => (p, move turn (1, 1) p)

/-- A singular value decomposition of their matrix. -/
def svd1 : Mat Rat → Mat Rat × (Rat × Rat) × Mat Rat := fun _ => (⟨1, 0, 0, 1⟩, (8, 2), turn)

/-- Another one, with the signs of the second vectors exchanged. -/
def svd2 : Mat Rat → Mat Rat × (Rat × Rat) × Mat Rat :=
  fun _ => (⟨1, 0, 0, -1⟩, (8, 2), ⟨3 / 5, 4 / 5, 4 / 5, -3 / 5⟩)

theorem svd1_spec : Decomposes svd1 (cross rhombus) :=
  ⟨⟨by decide +kernel, by decide +kernel, by decide +kernel⟩,
    ⟨by decide +kernel, by decide +kernel, by decide +kernel⟩, by decide +kernel, by decide +kernel,
    by decide +kernel⟩

theorem svd2_spec : Decomposes svd2 (cross rhombus) :=
  ⟨⟨by decide +kernel, by decide +kernel, by decide +kernel⟩,
    ⟨by decide +kernel, by decide +kernel, by decide +kernel⟩, by decide +kernel, by decide +kernel,
    by decide +kernel⟩

end Sample

open Sample

/-- **C74** is false: for a rhombus and its image under a rotation and a translation, and a
singular value decomposition as numpy may return it, `rotmat` is the inverse of the rotation,
and the corner `(2, 0)` is not moved to its place. -/
theorem C74_refuted : Decomposes svd1 (cross rhombus) ∧ IsRotation turn ∧
    (∀ m ∈ rhombus, move turn (1, 1) m.1 = m.2) ∧
    (transform svd1 rhombus).1 = turn.T ∧
    move (transform svd1 rhombus).1 (transform svd1 rhombus).2 (2, 0) = (11 / 5, -3 / 5) ∧
    move turn (1, 1) (2, 0) = (11 / 5, 13 / 5) :=
  ⟨svd1_spec, turn_rotation, by decide +kernel, by decide +kernel, by decide +kernel,
    by decide +kernel⟩

/-- The singular values of both decompositions differ (`C74_exactly_partial`). -/
example : (svd1 (cross rhombus)).2.1.2 < (svd1 (cross rhombus)).2.1.1 ∧
    (svd2 (cross rhombus)).2.1.2 < (svd2 (cross rhombus)).2.1.1 ∧
    (svd1 (cross rhombus)).2.2.b ≠ (svd1 (cross rhombus)).2.2.c := by
  decide +kernel

/-- With the other decomposition the hypotheses of `C74_best_partial` and `C74_exact_partial` are
met, and the result is right. -/
example : Decomposes svd2 (cross rhombus) ∧ rhombus ≠ [] ∧
    (svd2 (cross rhombus)).2.2.b = (svd2 (cross rhombus)).2.2.c ∧ IsRotation turn ∧
    (∀ m ∈ rhombus, move turn (1, 1) m.1 = m.2) ∧
    transform svd2 rhombus = (turn, (1, 1)) :=
  ⟨svd2_spec, by decide, by decide +kernel, turn_rotation, by decide +kernel, by decide +kernel⟩

end CM
