import Verif.Model.Kabsch

/-! # Specification of rotations, best fits and singular value decompositions -/

namespace CM.Spec

open Kabsch

variable {K : Type} [Field K] [LinearOrder K]

/-- A rotation of the plane. -/
structure IsRotation (R : Mat K) : Prop where
  diag : R.d = R.a
  anti : R.c = -R.b
  unit : R.a ^ 2 + R.b ^ 2 = 1

/-- An orthogonal matrix: its rows have length 1 and are perpendicular. -/
structure IsOrthogonal (A : Mat K) : Prop where
  first : A.a ^ 2 + A.b ^ 2 = 1
  second : A.c ^ 2 + A.d ^ 2 = 1
  perp : A.a * A.c + A.b * A.d = 0

/-- `X = V @ diag(s) @ U` with orthogonal `V` and `U`, and `s` sorted and not negative: what
`V, s, U = np.linalg.svd(X)` promises. -/
structure IsSVD (X V : Mat K) (s : K × K) (U : Mat K) : Prop where
  left : IsOrthogonal V
  right : IsOrthogonal U
  sorted : s.2 ≤ s.1
  nonneg : 0 ≤ s.2
  prod : (V.mul ⟨s.1, 0, 0, s.2⟩).mul U = X

/-- `svd X` is a singular value decomposition of `X`. -/
def Decomposes (svd : Mat K → Mat K × (K × K) × Mat K) (X : Mat K) : Prop :=
  IsSVD X (svd X).1 (svd X).2.1 (svd X).2.2

/-- The point `p @ R + t`. -/
def move (R : Mat K) (t : K × K) (p : K × K) : K × K :=
  (p.1 * R.a + p.2 * R.c + t.1, p.1 * R.b + p.2 * R.d + t.2)

/-- The sum of the squared distances between the moved points of the first set and the points
they are matched with. -/
def misfit (R : Mat K) (t : K × K) (ms : List ((K × K) × (K × K))) : K :=
  (ms.map fun m => ((move R t m.1).1 - m.2.1) ^ 2 + ((move R t m.1).2 - m.2.2) ^ 2).sum

end CM.Spec
