import Verif.Cubic.Param

/-!
# The Hermite parametrization

Model of `HermiteParam` of `spins/invdes/parametrization/parametrization.py` 332-472, of the geometry
matrices it uses (`cubic_utils.py` 888-1040 and 1114-1162), of `Phi2fii` with `derivatives=True`
(`cubic_utils.py` 382-475) and of `idxdydxy_matrix` (`cubic_utils.py` 483-501).

The parameters are values and derivatives `[f, fx, fy, fxy]` at the coarse points, one block after
the other, every block a grid in Fortran order.
-/

namespace Verif.Cubic

variable {K : Type*}

namespace SpMat

/-- `sparse.block_diag((A, B, …))` for blocks that may differ. -/
def blockDiagList [CommRing K] : List (SpMat K) → SpMat K
  | [] => zeros 0 0
  | A :: Ms => ⟨A.rows + (blockDiagList Ms).rows, A.cols + (blockDiagList Ms).cols, fun i j =>
      if i < A.rows then (if j < A.cols then A.ent i j else 0)
      else (if j < A.cols then 0 else (blockDiagList Ms).ent (i - A.rows) (j - A.cols))⟩

/-- `c * A` for a number `c`. -/
def scale [CommRing K] (c : K) (A : SpMat K) : SpMat K := ⟨A.rows, A.cols, fun i j => c * A.ent i j⟩

end SpMat

/-! ## Geometry -/

section
variable [CommRing K]

/-- cubic_utils.py 1139-1150 and 1151-1161 with `sign = -1`: the factor of line `i` of `n` lines: 1 in
the first half, 0 in the middle of an odd number (`block_c` is `sign * (sign > 0)`), −1 in the second
half, times `zero_0`, which is 0 at the two ends of a periodic axis. -/
def signAt (per : Bool) (n i : Nat) : K :=
  (if i < n / 2 then 1 else if n % 2 = 1 ∧ i = n / 2 then 0 else -1) *
    (if i = 0 ∨ i + 1 = n then (if per then 0 else 1) else 1)

/-- cubic_utils.py 1114-1162, `symmetry_matrix_sign_correction(shape, axis, -1, periodicity)`.  Along
an axis with less than two lines the diagonal of `zero_0` has the wrong length and the product raises. -/
def signCorrection (shape : Nat × Nat) (axis : Axis) (per : Bool) : Except Err (SpMat K) :=
  match axis with
  | .x =>
    if shape.1 < 2 then .error .dims
    else .ok (.blockDiag shape.2 (.diags shape.1 fun i => signAt per shape.1 i))
  | .y =>
    if shape.2 < 2 then .error .dims
    else .ok (.diags (shape.1 * shape.2) fun r => signAt per shape.2 (r / shape.1))

/-- cubic_utils.py 995-1006: the sign matrix of one axis, a unit matrix without symmetry. -/
def signStep (σ : Bool) (shape : Nat × Nat) (axis : Axis) (per : Bool) (w : Nat) :
    Except Err (SpMat K) :=
  if σ then signCorrection shape axis per else .ok (.eye w)

/-- cubic_utils.py 888-1040, with `unit` for `periodicity_unitcell` of lines 911-913. -/
def hermiteGeometry (shape : Nat × Nat) (sym per : Bool × Bool) (periods : Nat × Nat)
    (unit : Bool × Bool) : Except Err (SpMat K × SpMat K) := do
  let (addY, revAddY, s) ← boundaryStep per.2 shape .y (shape.1 * shape.2) (shape.1 * shape.2)
  let (addX, revAddX, s) ← boundaryStep per.1 s .x addY.cols revAddY.rows
  let (perY, revPerY, s) ← periodStep periods.2 s .y addX.cols revAddX.rows
  let (perX, revPerX, s) ← periodStep periods.1 s .x perY.cols revPerY.rows
  let (addUY, revAddUY, s) ← unitStep unit.2 s .y perX.cols revPerX.rows
  let (addUX, revAddUX, s) ← unitStep unit.1 s .x addUY.rows revAddUY.cols
  let signX ← signStep sym.1 s .x per.1 revAddUX.cols
  let signY ← signStep sym.2 s .y per.2 revAddUX.cols
  let signXY ← signX.matmul signY
  let sign := SpMat.blockDiagList [.eye revAddUX.cols, signX, signY, signXY]
  let (symY, revSymY, s) ← symStep sym.2 s .y revAddUX.cols addUX.rows
  let (symX, revSymX, _) ← symStep sym.1 s .x symY.cols revSymY.rows
  let d := fun A : SpMat K => SpMat.blockDiag 4 A
  let geometry ← mulE (mulE (mulE (mulE (mulE ((d perY).matmul (d perX)) (d revAddUY)) (d revAddUX))
    sign) (d symY)) (d symX)
  let reverse ← mulE (mulE (mulE (mulE (mulE (mulE (mulE ((d revSymX).matmul (d revSymY)) sign)
    (d addUX)) (d addUY)) (d revPerX)) (d revPerY)) (d revAddX)) (d revAddY)
  return (geometry, reverse)

/-- cubic_utils.py 911-913: `(p not in [0, 1]) * s`. -/
def unitHermite (periods : Nat × Nat) (sym : Bool × Bool) : Bool × Bool :=
  (periods.1 != 0 && periods.1 != 1 && sym.1, periods.2 != 0 && periods.2 != 1 && sym.2)

/-- cubic_utils.py 888-1040, `make_geometry_matrix_hermite`. -/
def makeGeometryMatrixHermite (shape : Nat × Nat) (sym per : Bool × Bool) (periods : Nat × Nat) :
    Except Err (SpMat K × SpMat K) :=
  hermiteGeometry shape sym per periods (unitHermite periods sym)

end

/-! ## Interpolation -/

section
variable [Field K] [LinearOrder K]

/-- `deriv_scaling` for a step `d`: `[1, d, d ** 2]` (parametrization.py 384-387, where `d` is
`scale * np.diff(fine_x).mean()` and the last entry `scale**2 * np.diff(fine_x).mean()**2`). -/
def derivScaling (scale m : K) : K × K × K := (1, scale * m, scale ^ 2 * m ^ 2)

/-- cubic_utils.py 382-475, `Phi2fii(..., derivatives=True, deriv_scaling)`.  The derivative matrices
of lines 429-430 are computed although they are not used, so the same grids are refused; the products
with them (lines 456-467) are left out. -/
def phi2fiiDeriv (X Y xs ys : List K) (per : Bool × Bool) (s : K × K × K) : Except Err (SpMat K) := do
  let _dx ← makeDmatrixQuad xs ys .x per
  let _dy ← makeDmatrixQuad xs ys .y per
  let pm ← periodicityMatrix xs.length ys.length per
  let p00 ← (cornerMatrix X Y xs ys 0 0).matmul pm
  let p10 ← (cornerMatrix X Y xs ys 1 0).matmul pm
  let p01 ← (cornerMatrix X Y xs ys 0 1).matmul pm
  let p11 ← (cornerMatrix X Y xs ys 1 1).matmul pm
  let p2f := SpMat.vstackList pm.cols [p00, p10, p01, p11]
  return .blockDiagList [p2f.scale s.1, p2f.scale s.2.1⁻¹, p2f.scale s.2.1⁻¹, p2f.scale s.2.2⁻¹]

/-- cubic_utils.py 10-75, `CubicMatrices(..., derivatives=True, deriv_scaling)`. -/
def cubicMatricesDeriv (X Y xs ys : List K) (per : Bool × Bool) (s : K × K × K) :
    Except Err (SpMat K × SpMat K × SpMat K) :=
  if fineInside X xs && fineInside Y ys then
    match phi2fiiDeriv X Y xs ys per s with
    | .error e => .error e
    | .ok phi => cubicFrom X Y xs ys phi
  else .error .fine

/-- cubic_utils.py 483-501, `idxdydxy_matrix(xq_vector, yq_vector, deriv_scaling=…)`: values to
`[f, fx, fy, fxy]`.  `HermiteParam` does not pass the periodicity, so it is not periodic. -/
def derivativeMatrix (xs ys : List K) (s : K × K × K) : Except Err (SpMat K) := do
  let dx ← makeDmatrixQuad xs ys .x (false, false)
  let dy ← makeDmatrixQuad xs ys .y (false, false)
  let dxy ← (dx.scale s.2.2).matmul dy
  let n := xs.length * ys.length
  return .vstackList n [SpMat.scale s.1 (.eye n), dx.scale s.2.1, dy.scale s.2.1, dxy]

end

/-! ## The parametrization -/

/-- `np.diff(fine_x).mean()`.  For a single point numpy yields `nan`; the theorems ask for a step
that is not zero. -/
noncomputable def meanStep (X : List ℝ) : ℝ :=
  (List.zipWith (fun a b : ℝ => a - b) X.tail X).sum / ((X.length - 1 : Nat) : ℝ)

/-- Attributes of a `HermiteParam`. -/
structure HermiteParam where
  geometry : SpMat ℝ
  reverse : SpMat ℝ
  derivative : SpMat ℝ
  vec2f : SpMat ℝ
  vector : List ℝ
  k : ℝ
  lower : ℝ
  upper : ℝ

/-- parametrization.py 389-406, "correct the initial value". -/
noncomputable def hermiteInit (geometry reverse derivative : SpMat ℝ) : Init → Except Err (List ℝ)
  | .number c => .ok (List.replicate geometry.cols (c * 1))
  | .array l =>
    if l.length = geometry.cols then .ok l
    else if l.length = geometry.rows then matVec reverse l
    else if l.length = derivative.cols then
      match reverse.matmul derivative with
      | .error e => .error e
      | .ok m => matVec m l
    else .error .initial

/-- parametrization.py 352-428, `HermiteParam.__init__`; the bounds are numbers. -/
noncomputable def mkHermiteParam (init : Init) (coarseX coarseY fineX fineY : List ℝ)
    (sym per : Bool × Bool) (periods : Nat × Nat) (lower upper : ℝ) (bounds : Option (ℝ × ℝ))
    (scale : ℝ) : Except Err HermiteParam := do
  let (geometry, reverse) ←
    makeGeometryMatrixHermite (coarseX.length, coarseY.length) sym per periods
  let derivative ← derivativeMatrix coarseX coarseY (derivScaling scale (meanStep fineX))
  let vector ← hermiteInit geometry reverse derivative init
  let (phi2f, _, _) ←
    cubicMatricesDeriv fineX fineY coarseX coarseY per (derivScaling scale (meanStep fineX))
  let vec2f ← phi2f.matmul geometry
  let (lo, hi) := match bounds with | some b => b | none => (lower, upper)
  return ⟨geometry, reverse, derivative, vec2f, vector, 4, lo, hi⟩

/-- parametrization.py 430-432, `get_structure`. -/
noncomputable def HermiteParam.getStructure (p : HermiteParam) : Except Err (List ℝ) :=
  match matVec p.vec2f p.vector with
  | .error e => .error e
  | .ok z => .ok (z.map (sigmoid p.k))

/-- parametrization.py 434-438, `calculate_gradient`. -/
noncomputable def HermiteParam.calculateGradient (p : HermiteParam) : Except Err (SpMat ℝ) :=
  match matVec p.vec2f p.vector with
  | .error e => .error e
  | .ok z => (SpMat.diags z.length fun i => sigmoidD p.k (z.getD i 0)).matmul p.vec2f

/-- parametrization.py 440-441, `set_k`. -/
def HermiteParam.setK (p : HermiteParam) (k : ℝ) : HermiteParam := { p with k := k }

/-- parametrization.py 443-444, `project`: `np.clip`. -/
noncomputable def HermiteParam.project (p : HermiteParam) : HermiteParam :=
  { p with vector := p.vector.map fun x => min (max x p.lower) p.upper }

/-- parametrization.py 446-447 and 77-92, `to_vector`. -/
def HermiteParam.toVector (p : HermiteParam) : List ℝ := p.vector

/-- parametrization.py 449-462, `decode`. -/
noncomputable def HermiteParam.decode (p : HermiteParam) : Init → Except Err HermiteParam
  | .number c => .ok { p with vector := List.replicate p.geometry.cols (c * 1) }
  | .array l =>
    if l.length = p.geometry.cols then .ok { p with vector := l }
    else if l.length = p.geometry.rows then
      match matVec p.reverse l with
      | .error e => .error e
      | .ok v => .ok { p with vector := v }
    else .error .initial

/-- parametrization.py 94-97, `from_vector`. -/
noncomputable def HermiteParam.fromVector (p : HermiteParam) (v : List ℝ) : Except Err HermiteParam :=
  match p.decode (.array v) with
  | .error e => .error e
  | .ok q => .ok q.project

/-- parametrization.py 464-468, `serialize`. -/
def HermiteParam.serialize (p : HermiteParam) : List ℝ × ℝ := (p.toVector, p.k)

/-- parametrization.py 470-472, `deserialize`. -/
noncomputable def HermiteParam.deserialize (p : HermiteParam) (d : List ℝ × ℝ) :
    Except Err HermiteParam :=
  match p.fromVector d.1 with
  | .error e => .error e
  | .ok q => .ok (q.setK d.2)

end Verif.Cubic
