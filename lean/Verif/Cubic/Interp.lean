import Verif.Cubic.Geometry
import Mathlib.Algebra.Order.Field.Basic
import Mathlib.Algebra.Field.Basic

/-!
# Bicubic interpolation

Model of `spins/invdes/parametrization/cubic_utils.py` 10-268, 349-480 and 578-726: the matrices that
interpolate the values on a coarse grid at the points of a fine grid, and its derivatives.

Numbers are the elements of an ordered field; rounding is not modelled.  Fine grid and coarse grid
are given by the coordinates along the two axes.
-/

namespace Verif.Cubic

variable {K : Type*} [Field K] [LinearOrder K]

/-- `l[i]` of Python, counting from the end for negative `i`.  An index out of range does not occur
where this is used. -/
def pyGet {α : Type*} (d : α) (l : List α) (i : Int) : α :=
  if i < 0 then l.getD (l.length - i.natAbs) d else l.getD i.toNat d

/-- `np.digitize(x, bins)` for increasing `bins`: the number of bins that are at most `x`. -/
def digitize (bins : List K) (x : K) : Nat := (bins.filter fun b => b ≤ x).length

/-- cubic_utils.py 97-104, `floor2vector(arr, bins)[1]`: the cell of `x`.  The last cell is closed.
For `x` below the first bin the code yields −1, which refers to the last bin; such points are
excluded by the check of `CubicMatrices` for fine grids in increasing order. -/
def cellOf (bins : List K) (x : K) : Nat := min (digitize bins x) (bins.length - 1) - 1

/-- cubic_utils.py 125-134, `floor2vector_rem(arr, bins)[0]`: the offset in the cell. -/
def remOf (bins : List K) (x : K) : K := x - bins.getD (cellOf bins x) 0

/-- cubic_utils.py 125-134, `floor2vector_rem(arr, bins)[1]`: the length of the cell. -/
def diffOf (bins : List K) (x : K) : K :=
  bins.getD (cellOf bins x + 1) 0 - bins.getD (cellOf bins x) 0

/-- A quantity per fine point, `meshgrid(..., indexing="ij")` flattened in Fortran order
(lines 46-52). -/
def onFine {α : Type*} (nX : Nat) (f : Nat → α) (k : Nat) : α := f (k % nX)
/-- The same for a quantity that depends on the second coordinate. -/
def onFineY {α : Type*} (nX : Nat) (f : Nat → α) (k : Nat) : α := f (k / nX)

/-- Rows of `x`, lines 157-167: `x ** i`. -/
def pow4 (i : Nat) (x : K) : K := x ^ i
/-- Rows of `x_x`, lines 159-173: the derivative of `x ** i`. -/
def dpow4 (i : Nat) (x : K) : K :=
  match i with
  | 0 => 0
  | 1 => 1
  | 2 => 2 * x
  | _ => 3 * x ^ 2

/-- cubic_utils.py 137-202, `MakeXYcubic`: one of the three matrices, for the given functions of the
two offsets. -/
def makeXY (n : Nat) (fx fy : Nat → K → K) (x y : Nat → K) : SpMat K :=
  .coo n (16 * n)
    ((List.range 4).flatMap fun i => (List.range 4).flatMap fun j =>
      (List.range n).map fun k => (k, k + (i + 4 * j) * n, fx i (x k) * fy j (y k)))

/-- cubic_utils.py 205-241, `MakeDXDY_inv`. -/
def makeDXDYinv (n : Nat) (dx dy : Nat → K) : SpMat K :=
  .diags (16 * n) fun r => ((dy (r % n))⁻¹) ^ (r / n / 4) * ((dx (r % n))⁻¹) ^ (r / n % 4)

/-- cubic_utils.py 244-268, `MakeDXDYcorr_inv`. -/
def makeDXDYcorr (n : Nat) (dx dy : Nat → K) : SpMat K :=
  .diags (16 * n) fun r =>
    match r / n / 4 with
    | 0 => 1
    | 1 => dx (r % n)
    | 2 => dy (r % n)
    | _ => dx (r % n) * dy (r % n)

/-- The table of cubic_utils.py 358-375. -/
def aSingle : List (List Int) :=
  [[1, 0, 0, 0, 0, 0, 0, 0, 0, 0, 0, 0, 0, 0, 0, 0],
   [0, 0, 0, 0, 1, 0, 0, 0, 0, 0, 0, 0, 0, 0, 0, 0],
   [-3, 3, 0, 0, -2, -1, 0, 0, 0, 0, 0, 0, 0, 0, 0, 0],
   [2, -2, 0, 0, 1, 1, 0, 0, 0, 0, 0, 0, 0, 0, 0, 0],
   [0, 0, 0, 0, 0, 0, 0, 0, 1, 0, 0, 0, 0, 0, 0, 0],
   [0, 0, 0, 0, 0, 0, 0, 0, 0, 0, 0, 0, 1, 0, 0, 0],
   [0, 0, 0, 0, 0, 0, 0, 0, -3, 3, 0, 0, -2, -1, 0, 0],
   [0, 0, 0, 0, 0, 0, 0, 0, 2, -2, 0, 0, 1, 1, 0, 0],
   [-3, 0, 3, 0, 0, 0, 0, 0, -2, 0, -1, 0, 0, 0, 0, 0],
   [0, 0, 0, 0, -3, 0, 3, 0, 0, 0, 0, 0, -2, 0, -1, 0],
   [9, -9, -9, 9, 6, 3, -6, -3, 6, -6, 3, -3, 4, 2, 2, 1],
   [-6, 6, 6, -6, -3, -3, 3, 3, -4, 4, -2, 2, -2, -2, -1, -1],
   [2, 0, -2, 0, 0, 0, 0, 0, 1, 0, 1, 0, 0, 0, 0, 0],
   [0, 0, 0, 0, 2, 0, -2, 0, 0, 0, 0, 0, 1, 0, 1, 0],
   [-6, 6, 6, -6, -4, -2, 4, 2, -3, 3, -3, 3, -2, -1, -2, -1],
   [4, -4, -4, 4, 2, 2, -2, -2, 2, -2, 2, -2, 1, 1, 1, 1]]

/-- cubic_utils.py 349-379, `MakeAcubic(n_p)`. -/
def makeAcubic (n : Nat) : SpMat K :=
  .kronEye ⟨16, 16, fun r c => ((aSingle.getD r []).getD c 0 : Int)⟩ n

/-- cubic_utils.py 608-613: `per_i` — the numbers of the lines, followed by the first and the last
one. -/
def perIdx (n : Nat) : List Nat := ((List.range (n + 2)).set n 0).set (n + 1) (n - 1)

/-- cubic_utils.py 599-606: the coordinates of a periodic axis, with the coordinate before the first
one appended (index −1). -/
def perCoords (per : Bool) (xs : List K) : List K :=
  if per then xs ++ [pyGet 0 xs 0 - (pyGet 0 xs (-1) - pyGet 0 xs (-2))] else xs

/-- cubic_utils.py 643-725: the three entries of row `(i, j)` of the derivative along `axis`, where
`ind` is the position along the axis, `x` its coordinates and `len` its number of lines.  An entry
is `(row, column, value)`. -/
def quadRow (x : List K) (len : Nat) (periodic : Bool) (axis : Axis) (nx ny : Nat) (i j : Nat) :
    List (Nat × Nat × K) :=
  let ind : Int := match axis with | .x => i | .y => j
  let row := i + nx * j
  -- `np.ravel_multi_index([i + d0, j + d1], m_size, order="F")`
  let col (d : Int) : Nat :=
    match axis with
    | .x => (i + d : Int).toNat + nx * j
    | .y => i + nx * (j + d : Int).toNat
  -- the same with `per_i[...]`, `per_j[...]`
  let pcol (d : Int) : Nat :=
    match axis with
    | .x => pyGet 0 (perIdx nx) (i + d) + nx * pyGet 0 (perIdx ny) j
    | .y => pyGet 0 (perIdx nx) i + nx * pyGet 0 (perIdx ny) (j + d)
  if ind = (len : Int) - 1 ∧ periodic = false then
    let xmin := pyGet 0 x (ind - 2) - pyGet 0 x (ind - 1)
    let xplus := pyGet 0 x ind - pyGet 0 x (ind - 1)
    let denum := xmin * xplus * (xmin - xplus)
    [(row, col (-2), xplus ^ 2 / denum),
     (row, col (-1), -(xmin ^ 2 - 2 * xmin * xplus + xplus ^ 2) / denum),
     (row, col 0, -(2 * xmin * xplus - xmin ^ 2) / denum)]
  else if ind = 0 ∧ periodic = false then
    let xmin := pyGet 0 x ind - pyGet 0 x (ind + 1)
    let xplus := pyGet 0 x (ind + 2) - pyGet 0 x (ind + 1)
    let denum := xmin * xplus * (xmin - xplus)
    [(row, col 0, (2 * xmin * xplus - xplus ^ 2) / denum),
     (row, col 1, (xmin ^ 2 - 2 * xmin * xplus + xplus ^ 2) / denum),
     (row, col 2, -xmin ^ 2 / denum)]
  else
    let xmin := pyGet 0 x (ind - 1) - pyGet 0 x ind
    let xplus := pyGet 0 x (ind + 1) - pyGet 0 x ind
    let denum := xmin * xplus * (xmin - xplus)
    [(row, pcol (-1), -xplus ^ 2 / denum),
     (row, pcol 0, (xplus ^ 2 - xmin ^ 2) / denum),
     (row, pcol 1, xmin ^ 2 / denum)]

/-- Number of independent lines of an axis (lines 597-606). -/
def freeLen (per : Bool) (n : Nat) : Nat := if per then n - 1 else n

/-- cubic_utils.py 578-726, `makeDmatrix_quad(x_vector, y_vector, axis, periodicity)`.  An axis that
is too short for three-point derivatives makes `ravel_multi_index` or an index raise. -/
def makeDmatrixQuad (xs ys : List K) (axis : Axis) (per : Bool × Bool) : Except Err (SpMat K) :=
  let nx := freeLen per.1 xs.length
  let ny := freeLen per.2 ys.length
  let x := match axis with | .x => perCoords per.1 xs | .y => perCoords per.2 ys
  let len := match axis with | .x => nx | .y => ny
  let periodic := match axis with | .x => per.1 | .y => per.2
  if (per.1 = true ∧ xs.length < 2) ∨ (per.2 = true ∧ ys.length < 2) ∨
      (periodic = false ∧ len < 3) then .error .shape
  else
    .ok (.coo (nx * ny) (nx * ny)
      ((List.range nx).flatMap fun i => (List.range ny).flatMap fun j =>
        quadRow x len periodic axis nx ny i j))

/-- cubic_utils.py 403-426, 448-455: the matrix that picks, for every fine point, the coarse value
at corner `(di, dj)` of its cell. -/
def cornerMatrix (X Y xs ys : List K) (di dj : Nat) : SpMat K :=
  .coo (X.length * Y.length) (xs.length * ys.length)
    ((List.range X.length).flatMap fun a => (List.range Y.length).map fun b =>
      (a + X.length * b,
        (cellOf xs (X.getD a 0) + di) + xs.length * (cellOf ys (Y.getD b 0) + dj), 1))

/-- cubic_utils.py 437-445: with periodicity, append a copy of the first line along `axis`. -/
def appendLine (per : Bool) (shape : Nat × Nat) (axis : Axis) (m : SpMat K) : Except Err (SpMat K) :=
  if per then
    match duplicateBoundary shape axis with
    | .error e => .error e
    | .ok (a, _) => SpMat.matmul a m
  else .ok m

/-- cubic_utils.py 434-445: the matrix that appends the boundaries of the periodic axes. -/
def periodicityMatrix (nx ny : Nat) (per : Bool × Bool) : Except Err (SpMat K) := do
  let m ← appendLine per.1 (nx, freeLen per.2 ny) .x (.eye (freeLen per.1 nx * freeLen per.2 ny))
  appendLine per.2 (nx, ny) .y m

/-- cubic_utils.py 382-480, `Phi2fii` without `derivatives`: the sixteen values `f`, `f_x`, `f_y`,
`f_xy` at the four corners of the cell of every fine point, in the order of lines 477-480. -/
def phi2fii (X Y xs ys : List K) (per : Bool × Bool) : Except Err (SpMat K) := do
  let dx ← makeDmatrixQuad xs ys .x per
  let dy ← makeDmatrixQuad xs ys .y per
  let pm ← periodicityMatrix xs.length ys.length per
  let p00 ← (cornerMatrix X Y xs ys 0 0).matmul pm
  let p10 ← (cornerMatrix X Y xs ys 1 0).matmul pm
  let p01 ← (cornerMatrix X Y xs ys 0 1).matmul pm
  let p11 ← (cornerMatrix X Y xs ys 1 1).matmul pm
  let x00 ← p00.matmul dx
  let x10 ← p10.matmul dx
  let x01 ← p01.matmul dx
  let x11 ← p11.matmul dx
  let y00 ← p00.matmul dy
  let y10 ← p10.matmul dy
  let y01 ← p01.matmul dy
  let y11 ← p11.matmul dy
  let xy00 ← x00.matmul dy
  let xy10 ← x10.matmul dy
  let xy01 ← x01.matmul dy
  let xy11 ← x11.matmul dy
  return .vstackList pm.cols
    [p00, p10, p01, p11, x00, x10, x01, x11, y00, y10, y01, y11, xy00, xy10, xy01, xy11]

/-- cubic_utils.py 36-40: the fine grid has to lie inside of the coarse grid. -/
def fineInside (X xs : List K) : Bool :=
  !(decide (pyGet 0 X 0 < pyGet 0 xs 0) || decide (pyGet 0 X (-1) > pyGet 0 xs (-1)))

/-- cubic_utils.py 10-75, the rest of `CubicMatrices` once `Phi2fii` is known: the matrices for the
value, the x-derivative and the y-derivative at the fine points. -/
def cubicFrom (X Y xs ys : List K) (phi : SpMat K) : Except Err (SpMat K × SpMat K × SpMat K) := do
  let n := X.length * Y.length
  let x := onFine X.length fun a => remOf xs (X.getD a 0)
  let y := onFineY X.length fun b => remOf ys (Y.getD b 0)
  let dx := onFine X.length fun a => diffOf xs (X.getD a 0)
  let dy := onFineY X.length fun b => diffOf ys (Y.getD b 0)
  let a ← mulE ((makeDXDYinv n dx dy).matmul (makeAcubic n)) (makeDXDYcorr n dx dy)
  let f ← mulE ((makeXY n pow4 pow4 x y).matmul a) phi
  let fx ← mulE ((makeXY n dpow4 pow4 x y).matmul a) phi
  let fy ← mulE ((makeXY n pow4 dpow4 x y).matmul a) phi
  return (f, fx, fy)

/-- cubic_utils.py 10-75, `CubicMatrices(x_vector, y_vector, xq_vector, yq_vector, periodicity)`. -/
def cubicMatrices (X Y xs ys : List K) (per : Bool × Bool) :
    Except Err (SpMat K × SpMat K × SpMat K) :=
  if fineInside X xs && fineInside Y ys then
    match phi2fii X Y xs ys per with
    | .error e => .error e
    | .ok phi => cubicFrom X Y xs ys phi
  else .error .fine

end Verif.Cubic
