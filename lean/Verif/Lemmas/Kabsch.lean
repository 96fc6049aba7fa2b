import Verif.SpecKabsch
import Mathlib.Tactic.Ring
import Mathlib.Tactic.Linarith
import Mathlib.Tactic.FieldSimp
import Mathlib.Tactic.LinearCombination
import Mathlib.Tactic.NormNum

/-! # Lemmas on least squares in the plane -/

namespace CM.Kabsch

open Spec

variable {K : Type} [Field K] [LinearOrder K] [IsStrictOrderedRing K]

omit [LinearOrder K] [IsStrictOrderedRing K] in
/-- The sum of squared distances in terms of moments. -/
theorem misfit_moments [LinearOrder K] {R : Mat K} (hR : IsRotation R) (t : K × K)
    (ms : List ((K × K) × (K × K))) :
    misfit R t ms = (ms.map fun m => m.1.1 ^ 2 + m.1.2 ^ 2).sum +
      (ms.map fun m => m.2.1 ^ 2 + m.2.2 ^ 2).sum + ms.length * (t.1 ^ 2 + t.2 ^ 2) +
      2 * (t.1 * ((ms.map fun m => m.1.1).sum * R.a + (ms.map fun m => m.1.2).sum * R.c) +
        t.2 * ((ms.map fun m => m.1.1).sum * R.b + (ms.map fun m => m.1.2).sum * R.d)) -
      2 * (t.1 * (ms.map fun m => m.2.1).sum + t.2 * (ms.map fun m => m.2.2).sum) -
      2 * (R.a * (ms.map fun m => m.1.1 * m.2.1).sum + R.b * (ms.map fun m => m.1.1 * m.2.2).sum +
        R.c * (ms.map fun m => m.1.2 * m.2.1).sum + R.d * (ms.map fun m => m.1.2 * m.2.2).sum) := by
  obtain ⟨h1, h2, h3⟩ := hR
  unfold misfit move
  simp only [h1, h2]
  induction ms with
  | nil => simp
  | cons m ms ih =>
    simp only [List.map_cons, List.sum_cons, ih, List.length_cons, Nat.cast_add, Nat.cast_one]
    linear_combination (m.1.1 ^ 2 + m.1.2 ^ 2) * h3

omit [LinearOrder K] [IsStrictOrderedRing K] in
theorem sum_centred (f g : (K × K) × (K × K) → K) (x y : K) (ms : List ((K × K) × (K × K))) :
    (ms.map fun m => (f m - x) * (g m - y)).sum = (ms.map fun m => f m * g m).sum -
      y * (ms.map f).sum - x * (ms.map g).sum + ms.length * (x * y) := by
  induction ms with
  | nil => simp
  | cons m ms ih =>
    simp only [List.map_cons, List.sum_cons, ih, List.length_cons, Nat.cast_add, Nat.cast_one]
    ring

/-- The scalar product of two matrices. -/
def dot (A B : Mat K) : K := A.a * B.a + A.b * B.b + A.c * B.c + A.d * B.d

/-- The part of the sum of squares that no rotation and translation changes. -/
def spread (ms : List ((K × K) × (K × K))) : K :=
  (ms.map fun m => m.1.1 ^ 2 + m.1.2 ^ 2).sum + (ms.map fun m => m.2.1 ^ 2 + m.2.2 ^ 2).sum -
    ms.length * ((mean (ms.map Prod.fst)).1 ^ 2 + (mean (ms.map Prod.fst)).2 ^ 2 +
      (mean (ms.map Prod.snd)).1 ^ 2 + (mean (ms.map Prod.snd)).2 ^ 2)

theorem misfit_eq {R : Mat K} (hR : IsRotation R) (t : K × K) {ms : List ((K × K) × (K × K))}
    (h : ms ≠ []) :
    misfit R t ms = spread ms - 2 * dot R (cross ms) + ms.length *
      ((t.1 - (-(apply (mean (ms.map Prod.fst)) R).1 + (mean (ms.map Prod.snd)).1)) ^ 2 +
       (t.2 - (-(apply (mean (ms.map Prod.fst)) R).2 + (mean (ms.map Prod.snd)).2)) ^ 2) := by
  have hn : (ms.length : K) ≠ 0 := by
    rw [Nat.cast_ne_zero, Ne, List.length_eq_zero_iff]; exact h
  rw [misfit_moments hR]
  unfold spread dot cross
  simp only [sum_centred]
  obtain ⟨h1, h2, h3⟩ := hR
  have e1 : (ms.map fun m => m.1.1).sum = ms.length * (mean (ms.map Prod.fst)).1 := by
    simp only [mean, List.map_map, List.length_map]; field_simp; rfl
  have e2 : (ms.map fun m => m.1.2).sum = ms.length * (mean (ms.map Prod.fst)).2 := by
    simp only [mean, List.map_map, List.length_map]; field_simp; rfl
  have e3 : (ms.map fun m => m.2.1).sum = ms.length * (mean (ms.map Prod.snd)).1 := by
    simp only [mean, List.map_map, List.length_map]; field_simp; rfl
  have e4 : (ms.map fun m => m.2.2).sum = ms.length * (mean (ms.map Prod.snd)).2 := by
    simp only [mean, List.map_map, List.length_map]; field_simp; rfl
  simp only [e1, e2, e3, e4, apply, h1, h2]
  generalize (mean (ms.map Prod.fst)) = p
  generalize (mean (ms.map Prod.snd)) = q
  linear_combination (-(ms.length : K) * (p.1 ^ 2 + p.2 ^ 2)) * h3

/-- An orthogonal matrix is a rotation or a reflection. -/
theorem orthogonal_cases {A : Mat K} (h : IsOrthogonal A) :
    ∃ e : K, (e = 1 ∨ e = -1) ∧ A.c = -e * A.b ∧ A.d = e * A.a ∧ A.det = e := by
  obtain ⟨h1, h2, h3⟩ := h
  have hdet : A.det ^ 2 = 1 := by
    unfold Mat.det
    linear_combination (A.c ^ 2 + A.d ^ 2) * h1 + h2 - (A.a * A.c + A.b * A.d) * h3
  refine ⟨A.det, ?_, ?_, ?_, rfl⟩
  · have : (A.det - 1) * (A.det + 1) = 0 := by linear_combination hdet
    rcases mul_eq_zero.1 this with h | h
    · exact Or.inl (by linear_combination h)
    · exact Or.inr (by linear_combination h)
  · unfold Mat.det
    linear_combination A.a * h3 - A.c * h1
  · unfold Mat.det
    linear_combination A.b * h3 - A.d * h1

/-- A scalar product of unit vectors is at most 1. -/
theorem unit_le {a b c d : K} (h : a ^ 2 + b ^ 2 = 1) (h' : c ^ 2 + d ^ 2 = 1) :
    a * c + b * d ≤ 1 := by
  nlinarith [sq_nonneg (a - c), sq_nonneg (b - d)]

theorem rotmat_rotation {V U : Mat K} (hV : IsOrthogonal V) (hU : IsOrthogonal U) :
    IsRotation (rotmat V U) := by
  obtain ⟨e, he, v1, v2, v3⟩ := orthogonal_cases hV
  obtain ⟨f, hf, u1, u2, u3⟩ := orthogonal_cases hU
  have hV1 := hV.first
  have hU1 := hU.first
  have hdet : (V.mul U.T).det = e * f := by
    rw [← v3, ← u3]; unfold Mat.mul Mat.T Mat.det; simp only; ring
  unfold rotmat
  rw [hdet]
  rcases he with rfl | rfl <;> rcases hf with rfl | rfl <;>
    norm_num <;>
    (refine ⟨?_, ?_, ?_⟩ <;> simp only [Mat.mul, Mat.T, v1, v2, u1, u2]
     · ring
     · ring
     · linear_combination (V.a ^ 2 + V.b ^ 2) * hU1 + hV1)

/-- Kabsch: among the rotations, `V diag(1, ±1) U` has the largest scalar product with
`X = V diag(s) U`. -/
theorem rotmat_best {X V U : Mat K} {s : K × K} (h : IsSVD X V s U) (hs : U.b = U.c)
    {R : Mat K} (hR : IsRotation R) : dot R X ≤ dot (rotmat V U) X := by
  obtain ⟨hV, hU, h12, h2, rfl⟩ := h
  obtain ⟨e, he, v1, v2, v3⟩ := orthogonal_cases hV
  obtain ⟨f, hf, u1, u2, u3⟩ := orthogonal_cases hU
  have hV1 := hV.first
  have hU1 := hU.first
  obtain ⟨r1, r2, r3⟩ := hR
  have hdet : (V.mul U.T).det = e * f := by
    rw [← v3, ← u3]; unfold Mat.mul Mat.T Mat.det; simp only; ring
  have hT : U.T = U := by
    cases U
    simp only at hs
    simp only [Mat.T, hs]
  -- the scalar products of the factors
  have z : (V.a * (R.a * U.a + R.b * U.b) + V.c * (R.c * U.a + R.d * U.b)) ≤ 1 := by
    apply unit_le
    · rw [v1]; rcases he with rfl | rfl <;> linear_combination hV1
    · rw [r1, r2]; linear_combination (R.a ^ 2 + R.b ^ 2) * hU1 + r3
  unfold rotmat
  rw [hT, ← hT, hdet, hT]
  rcases he with rfl | rfl <;> rcases hf with rfl | rfl <;> norm_num
  all_goals
    simp only [dot, Mat.mul, v1, v2, u1, u2, r1, r2] at z ⊢
  · have p := mul_le_mul_of_nonneg_left z (add_nonneg (h2.trans h12) h2 : 0 ≤ s.1 + s.2)
    have q : (V.a ^ 2 + V.b ^ 2) * (U.a ^ 2 + U.b ^ 2) = 1 := by rw [hV1, hU1, one_mul]
    linear_combination p - (s.1 + s.2) * q
  · have p := mul_le_mul_of_nonneg_left z (sub_nonneg.2 h12 : 0 ≤ s.1 - s.2)
    have q : (V.a ^ 2 + V.b ^ 2) * (U.a ^ 2 + U.b ^ 2) = 1 := by rw [hV1, hU1, one_mul]
    linear_combination p - (s.1 - s.2) * q
  · have p := mul_le_mul_of_nonneg_left z (sub_nonneg.2 h12 : 0 ≤ s.1 - s.2)
    have q : (V.a ^ 2 + V.b ^ 2) * (U.a ^ 2 + U.b ^ 2) = 1 := by rw [hV1, hU1, one_mul]
    linear_combination p - (s.1 - s.2) * q
  · have p := mul_le_mul_of_nonneg_left z (add_nonneg (h2.trans h12) h2 : 0 ≤ s.1 + s.2)
    have q : (V.a ^ 2 + V.b ^ 2) * (U.a ^ 2 + U.b ^ 2) = 1 := by rw [hV1, hU1, one_mul]
    linear_combination p - (s.1 + s.2) * q

/-- If `U` is not symmetric and the singular values differ, `V diag(1, ±1) U` is better than what
the code computes. -/
theorem rotmat_worse {X V U : Mat K} {s : K × K} (h : IsSVD X V s U) (hs : U.b ≠ U.c)
    (hd : s.2 < s.1) : dot (rotmat V U) X < dot (rotmat V U.T) X := by
  obtain ⟨hV, hU, h12, h2, rfl⟩ := h
  obtain ⟨e, he, v1, v2, v3⟩ := orthogonal_cases hV
  obtain ⟨f, hf, u1, u2, u3⟩ := orthogonal_cases hU
  have hV1 := hV.first
  have hU1 := hU.first
  have hf1 : f = 1 := by
    rcases hf with hf | rfl
    · exact hf
    · exact absurd (by rw [u1]; ring) hs
  subst hf1
  have hb : U.b ≠ 0 := by
    intro hb
    apply hs
    rw [u1, hb]; ring
  have hdet : (V.mul U.T).det = e := by
    rw [← v3, show V.det = V.det * 1 from (mul_one _).symm, ← u3]
    unfold Mat.mul Mat.T Mat.det; simp only; ring
  have hdet' : (V.mul U.T.T).det = e := by
    rw [← v3, show V.det = V.det * 1 from (mul_one _).symm, ← u3]
    unfold Mat.mul Mat.T Mat.det; simp only; ring
  have hb2 : 0 < U.b ^ 2 := by positivity
  unfold rotmat
  rw [hdet, hdet']
  have q : (V.a ^ 2 + V.b ^ 2) * (U.a ^ 2 + U.b ^ 2) = 1 := by rw [hV1, hU1, one_mul]
  rcases he with rfl | rfl <;> norm_num
  all_goals simp only [dot, Mat.mul, Mat.T, v1, v2, u1, u2]
  · have p := mul_pos (by linarith : 0 < s.1 + s.2) hb2
    linear_combination 2 * p + (-2 * (s.1 + s.2) * U.b ^ 2) * hV1
  · have p := mul_pos (by linarith : 0 < s.1 - s.2) hb2
    linear_combination 2 * p + (-2 * (s.1 - s.2) * U.b ^ 2) * hV1

end CM.Kabsch
