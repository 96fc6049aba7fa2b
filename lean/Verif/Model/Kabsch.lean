import Mathlib.Algebra.Order.Field.Basic
import Mathlib.Analysis.SpecialFunctions.Trigonometric.Inverse

/-!
# The rotation and translation of `AlignGraph.get_correspondence(return_indices=False)`

wrappers/aligngraph.py:119-150, in exact arithmetic.  numpy's singular value decomposition is a
parameter; what it may return is specified in `SpecKabsch.lean`.  Points are rows, as in numpy, so
a matrix is applied from the right.
-/

namespace CM.Kabsch

variable {K : Type} [Field K]

/-- A 2 × 2 matrix with rows `(a, b)` and `(c, d)`. (`rotmat` in wrappers/aligngraph.py:129.) -/
structure Mat (K : Type) where
  a : K
  b : K
  c : K
  d : K
deriving DecidableEq

/-- `np.matmul`. (wrappers/aligngraph.py:126, 131, 133.) -/
def Mat.mul (A B : Mat K) : Mat K :=
  ⟨A.a * B.a + A.b * B.c, A.a * B.b + A.b * B.d, A.c * B.a + A.d * B.c, A.c * B.b + A.d * B.d⟩

/-- `A.T`. (wrappers/aligngraph.py:126, 131, 133.) -/
def Mat.T (A : Mat K) : Mat K := ⟨A.a, A.c, A.b, A.d⟩

/-- `np.linalg.det`. (wrappers/aligngraph.py:131.) -/
def Mat.det (A : Mat K) : K := A.a * A.d - A.b * A.c

/-- `np.matmul` of a row and a matrix. (wrappers/aligngraph.py:135.) -/
def apply (p : K × K) (A : Mat K) : K × K := (p.1 * A.a + p.2 * A.c, p.1 * A.b + p.2 * A.d)

/-- `np.mean(ps, axis=0)`. (wrappers/aligngraph.py:123-124, 135.) -/
def mean (ps : List (K × K)) : K × K :=
  ((ps.map Prod.fst).sum / ps.length, (ps.map Prod.snd).sum / ps.length)

/-- `np.matmul(a11.T, a21)` with the points relative to their means (aligngraph.py:123-126);
`ms` are the matched points, `(S1[i], S2[j])` for the pairs of the correspondence. -/
def cross (ms : List ((K × K) × (K × K))) : Mat K :=
  let p := mean (ms.map Prod.fst)
  let q := mean (ms.map Prod.snd)
  ⟨(ms.map fun m => (m.1.1 - p.1) * (m.2.1 - q.1)).sum,
   (ms.map fun m => (m.1.1 - p.1) * (m.2.2 - q.2)).sum,
   (ms.map fun m => (m.1.2 - p.2) * (m.2.1 - q.1)).sum,
   (ms.map fun m => (m.1.2 - p.2) * (m.2.2 - q.2)).sum⟩

variable [LinearOrder K]

/-- The rotation (aligngraph.py:129-133): `d = det(V @ U.T)`, and `V @ diag(1, sign of d) @ U.T`,
where `V, s, U` is what `np.linalg.svd` returned.  (numpy returns the transposed right factor:
`X = V @ diag(s) @ U`.) -/
def rotmat (V U : Mat K) : Mat K :=
  (V.mul ⟨1, 0, 0, if 0 < (V.mul U.T).det then 1 else -1⟩).mul U.T

/-- `AlignGraph._format_correspondence` (aligngraph.py:119-150): `rotmat` and `(dx, dy)`.  `svd`
is `np.linalg.svd`.  The angle is in `theta`. -/
def transform (svd : Mat K → Mat K × (K × K) × Mat K) (ms : List ((K × K) × (K × K))) :
    Mat K × (K × K) :=
  let (V, _, U) := svd (cross ms)
  let R := rotmat V U
  let p := mean (ms.map Prod.fst)
  let q := mean (ms.map Prod.snd)
  (R, (-(apply p R).1 + q.1, -(apply p R).2 + q.2))

/-- The angle `theta` (aligngraph.py:139-141).  In exact arithmetic `arccos` gets no arguments
beyond ±1, so that it is not NaN. -/
noncomputable def theta (R : Mat ℝ) : ℝ :=
  if R.c < 0 then -Real.arccos R.a else Real.arccos R.a

end CM.Kabsch
