import Mathlib.Algebra.Field.Basic
import Verif.Cubic.Sparse

/-!
Model of `makeDxmatrix` and `makeDymatrix`, `spins/invdes/parametrization/cubic_utils.py` 504-575.
-/

namespace Verif.Cubic

variable {K : Type*} [Field K]

/-- cubic_utils.py 512-536 (549-573): the entries of one row.  `n` is the number of points along the
axis, `k` the point of the row, and `pos` the number of a point of the line in Fortran order
(`np.ravel_multi_index`).  The code is written out for each axis. -/
def diffEntries (n k : Nat) (pos : Nat → Nat) : List (Nat × Nat × K) :=
  if k = n - 1 then [(pos k, pos (k - 1), -1), (pos k, pos k, 1)]
  else if k = 0 then [(pos k, pos k, -1), (pos k, pos (k + 1), 1)]
  else [(pos k, pos (k - 1), -1 / 2), (pos k, pos (k + 1), 1 / 2)]

/-- cubic_utils.py 504-538, `makeDxmatrix(m_size)`.  With a single point along the axis
`np.ravel_multi_index` raises for the point `-1`. -/
def makeDx (s : Nat × Nat) : Except Err (SpMat K) :=
  if s.1 = 1 ∧ s.2 ≠ 0 then .error .shape
  else .ok (.coo (s.1 * s.2) (s.1 * s.2) ((List.range s.1).flatMap fun i => (List.range s.2).flatMap fun j =>
    diffEntries s.1 i fun i => i + s.1 * j))

/-- cubic_utils.py 541-575, `makeDymatrix(m_size)`. -/
def makeDy (s : Nat × Nat) : Except Err (SpMat K) :=
  if s.2 = 1 ∧ s.1 ≠ 0 then .error .shape
  else .ok (.coo (s.1 * s.2) (s.1 * s.2) ((List.range s.1).flatMap fun i => (List.range s.2).flatMap fun j =>
    diffEntries s.2 j fun j => i + s.1 * j))

end Verif.Cubic
