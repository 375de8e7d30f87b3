import Verif.Cubic.Sparse

/-!
# The geometry matrices of the cubic parametrization

Model of `spins/invdes/parametrization/cubic_utils.py` 729-758, 765-885, 1043-1086 and 1227-1273: the
matrices that blow a parametrization vector up to the values on the whole coarse grid, according to
the reflection symmetry and the periodicity the user asked for, and the ones that go back.

Grid values are vectors in Fortran order: position `(i, j)` of a grid of shape `(a, b)` is entry
`i + a * j`.
-/

namespace Verif.Cubic

variable {K : Type*} [CommRing K]

/-- The two axes. -/
inductive Axis where | x | y
deriving DecidableEq, Repr

/-- cubic_utils.py 729-758, `duplicate_boundary_data(shape, axis)`: the matrix that appends a copy
of the first line along `axis`, and the matrix that drops the last line.  An axis shorter than two
makes scipy raise (`block_b[0, 0] = 1` on a matrix without columns, line 741; a negative number of
columns, line 752). -/
def duplicateBoundary (shape : Nat × Nat) : Axis → Except Err (SpMat K × SpMat K)
  | .x =>
    if shape.1 < 2 then .error .shape
    else
      let blockA := SpMat.eye (shape.1 - 1)
      let blockB : SpMat K := ⟨1, shape.1 - 1, fun _ j => if j = 0 then 1 else 0⟩
      let blockC := SpMat.zeros (shape.1 - 1) 1
      .ok (.blockDiag shape.2 (.vstack blockA blockB), .blockDiag shape.2 (.hstack blockA blockC))
  | .y =>
    if shape.2 < 2 then .error .shape
    else
      let block1 := SpMat.eye (shape.1 * (shape.2 - 1))
      let block2 := SpMat.hstack (.eye shape.1) (.zeros shape.1 (shape.1 * (shape.2 - 2)))
      .ok (.vstack block1 block2, .hstack block1 (.zeros (shape.1 * (shape.2 - 1)) shape.1))

/-- cubic_utils.py 1043-1086, `symmetry_matrix(shape, axis)`: the matrix that mirrors the first half
of the lines onto the second half, and the matrix that keeps the first half.  The argument names the
symmetry axis: `axis=0` mirrors the second coordinate and `axis=1` the first one.  For `axis=0` a
grid with a single line raises (`block_diag(())`, line 1065). -/
def symmetryMatrix (shape : Nat × Nat) : Axis → Except Err (SpMat K × SpMat K)
  | .x =>
    let half := (shape.2 + 1) / 2
    let block1 := SpMat.eye (shape.1 * half)
    let blockB := SpMat.flipCols (SpMat.eye shape.1)
    let block2 := SpMat.flipCols (SpMat.blockDiag (shape.2 / 2) blockB)
    let block2 := if shape.2 % 2 = 1 then
        SpMat.hstack block2 (.zeros (shape.1 * (shape.2 / 2)) shape.1)
      else block2
    if shape.2 < 2 then .error .shape
    else .ok (.vstack block1 block2, .hstack block1 (.transpose (.zeros block2.rows block2.cols)))
  | .y =>
    let half := (shape.1 + 1) / 2
    let blockA := SpMat.eye half
    let blockB := SpMat.flipCols (SpMat.eye (shape.1 / 2))
    let blockB := if shape.1 % 2 = 1 then SpMat.hstack blockB (.zeros (shape.1 / 2) 1) else blockB
    .ok (.blockDiag shape.2 (.vstack blockA blockB),
      .transpose (.blockDiag shape.2 (.vstack blockA (.zeros blockB.rows blockB.cols))))

/-- cubic_utils.py 1227-1273, `periodic_matrix(shape, axis, periods)`: the matrix that repeats a
unit cell `periods` times along `axis`, and the matrix that keeps the first unit cell. -/
def periodicMatrix (shape : Nat × Nat) (axis : Axis) (periods : Nat) :
    Except Err (SpMat K × SpMat K) :=
  match axis with
  | .x =>
    if shape.1 % periods > 0 then .error .periods
    else
      let n := shape.1 / periods
      let blockA := SpMat.eye n
      let blockB := SpMat.vstackList n (List.replicate periods blockA)
      let blockB' := SpMat.vstackList n (blockA :: List.replicate (periods - 1) (.zeros n n))
      .ok (.blockDiag shape.2 blockB, .transpose (.blockDiag shape.2 blockB'))
  | .y =>
    if shape.2 % periods > 0 then .error .periods
    else
      let n := shape.2 / periods * shape.1
      let blockA := SpMat.eye n
      .ok (.vstackList n (List.replicate periods blockA),
        .transpose (.vstackList n (blockA :: List.replicate (periods - 1) (.zeros n n))))

/-- The shape with one axis replaced. -/
def setAxis (shape : Nat × Nat) (axis : Axis) (n : Nat) : Nat × Nat :=
  match axis with
  | .x => (n, shape.2)
  | .y => (shape.1, n)

/-- The length of one axis. -/
def getAxis (shape : Nat × Nat) : Axis → Nat
  | .x => shape.1
  | .y => shape.2

/-- cubic_utils.py 799-814: with periodicity, the matrices of the duplicated boundary and the shape
without it; otherwise unit matrices of the given sizes. -/
def boundaryStep (per : Bool) (shape : Nat × Nat) (axis : Axis) (w w' : Nat) :
    Except Err (SpMat K × SpMat K × (Nat × Nat)) :=
  if per then
    match duplicateBoundary shape axis with
    | .error e => .error e
    | .ok (a, r) => .ok (a, r, setAxis shape axis (getAxis shape axis - 1))
  else .ok (.eye w, .eye w', shape)

/-- cubic_utils.py 816-839: the unit cells along one axis; with zero periods, unit matrices. -/
def periodStep (p : Nat) (shape : Nat × Nat) (axis : Axis) (w w' : Nat) :
    Except Err (SpMat K × SpMat K × (Nat × Nat)) :=
  if p = 0 then .ok (.eye w, .eye w', shape)
  else if getAxis shape axis % p = 0 then
    match periodicMatrix shape axis p with
    | .error e => .error e
    | .ok (a, r) => .ok (a, r, setAxis shape axis (getAxis shape axis / p))
  else .error .periods

/-- cubic_utils.py 841-857: the boundary of the unit cell.  The result is
`(add_unitcellboundary, rev_add_unitcellboundary, shape)`; without it, unit matrices of the given
sizes. -/
def unitStep (u : Bool) (shape : Nat × Nat) (axis : Axis) (w w' : Nat) :
    Except Err (SpMat K × SpMat K × (Nat × Nat)) :=
  if u then
    match duplicateBoundary (setAxis shape axis (getAxis shape axis + 1)) axis with
    | .error e => .error e
    | .ok (a, r) => .ok (a, r, setAxis shape axis (getAxis shape axis + 1))
  else .ok (.eye w, .eye w', shape)

/-- cubic_utils.py 859-872: the reflection symmetry of one coordinate.  To mirror coordinate `axis`
the code asks `symmetry_matrix` for the other axis (lines 860 and 867). -/
def symStep (s : Bool) (shape : Nat × Nat) (axis : Axis) (w w' : Nat) :
    Except Err (SpMat K × SpMat K × (Nat × Nat)) :=
  if s then
    match symmetryMatrix shape (match axis with | .x => .y | .y => .x) with
    | .error e => .error e
    | .ok (a, r) => .ok (a, r, setAxis shape axis ((getAxis shape axis + 1) / 2))
  else .ok (.eye w, .eye w', shape)

/-- `A @ B` inside of a longer product. -/
def mulE (A : Except Err (SpMat K)) (B : SpMat K) : Except Err (SpMat K) :=
  match A with
  | .error e => .error e
  | .ok A => A.matmul B

/-- cubic_utils.py 765-885, `make_geometry_matrix_cubic(shape, reflection_symmetry, periodicity,
periods, full_geometry_matrix)`.  `unit` is `periodicity_unitcell` of lines 793-795.  `periods` are
taken to be non-negative. -/
def geometryMatrices (shape : Nat × Nat) (sym per : Bool × Bool) (periods : Nat × Nat)
    (unit : Bool × Bool) (full : Bool) : Except Err (SpMat K × SpMat K) := do
  let (addY, revAddY, s) ← boundaryStep per.2 shape .y (shape.1 * shape.2) (shape.1 * shape.2)
  let (addX, revAddX, s) ← boundaryStep per.1 s .x addY.cols revAddY.rows
  let (perY, revPerY, s) ← periodStep periods.2 s .y addX.cols revAddX.rows
  let (perX, revPerX, s) ← periodStep periods.1 s .x perY.cols revPerY.rows
  let (addUY, revAddUY, s) ← unitStep unit.2 s .y perX.cols revPerX.rows
  let (addUX, revAddUX, s) ← unitStep unit.1 s .x addUY.rows revAddUY.cols
  let (symY, revSymY, s) ← symStep sym.2 s .y revAddUX.cols addUX.rows
  let (symX, revSymX, _) ← symStep sym.1 s .x symY.cols revSymY.rows
  let first ← if full then mulE (mulE (addY.matmul addX) perY) perX else perY.matmul perX
  let geometry ← mulE (mulE (mulE (first.matmul revAddUY) revAddUX) symY) symX
  let reverse ← mulE (mulE (mulE (mulE (mulE (mulE (revSymX.matmul revSymY) addUX) addUY) revPerX)
    revPerY) revAddX) revAddY
  return (geometry, reverse)

/-- cubic_utils.py 793-795: `(p not in [0]) * s`. -/
def unitCubic (periods : Nat × Nat) (sym : Bool × Bool) : Bool × Bool :=
  (periods.1 != 0 && sym.1, periods.2 != 0 && sym.2)

/-- cubic_utils.py 765-885. -/
def makeGeometryMatrixCubic (shape : Nat × Nat) (sym per : Bool × Bool) (periods : Nat × Nat)
    (full : Bool) : Except Err (SpMat K × SpMat K) :=
  geometryMatrices shape sym per periods (unitCubic periods sym) full

end Verif.Cubic
