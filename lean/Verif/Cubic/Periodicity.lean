import Verif.Cubic.Geometry

/-!
Model of `make_periodicity_matrix`, `spins/invdes/parametrization/cubic_utils.py` 1197-1224.
-/

namespace Verif.Cubic

variable {K : Type*} [CommRing K]

/-- cubic_utils.py 1214-1218 and 1219-1222: one axis.  `D` are the matrices of
`duplicate_boundary_data`; they are multiplied to the left of the matrix so far, and to the right of
the reverse one. -/
def periodicityStep (per : Bool) (D : Except Err (SpMat K × SpMat K)) (M : SpMat K × SpMat K) :
    Except Err (SpMat K × SpMat K) :=
  if per then do
    let (a, r) ← D
    let g ← a.matmul M.1
    let b ← M.2.matmul r
    return (g, b)
  else .ok M

/-- cubic_utils.py 1197-1224, `make_periodicity_matrix(shape, periodicity)`; `periodicity` is one or
zero for each axis, here a flag.  An axis with a flag and without points raises (a negative number
of points in lines 1210-1213); this is left to the step of the axis.  Grids without
points along an axis without a flag, for which scipy raises as well, are not singled out. -/
def makePeriodicityMatrix (shape : Nat × Nat) (per : Bool × Bool) : Except Err (SpMat K × SpMat K) := do
  let n := (shape.1 - per.1.toNat) * (shape.2 - per.2.toNat)
  let M ← periodicityStep per.1 (duplicateBoundary (shape.1, shape.2 - per.2.toNat) .x) (.eye n, .eye n)
  periodicityStep per.2 (duplicateBoundary shape .y) M

end Verif.Cubic
