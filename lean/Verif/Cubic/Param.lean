import Verif.Cubic.Geometry
import Verif.Cubic.Interp
import Mathlib.Analysis.SpecialFunctions.Exp

/-!
# The cubic parametrization

Model of `CubicParam` of `spins/invdes/parametrization/parametrization.py` 172-277, with
`to_vector` and `from_vector` of its base class (77-97).  Numbers are exact reals; `serialize` keeps
what it names.
-/

namespace Verif.Cubic

/-- The argument `initial_value`: a number, or an array (line 213 tells them apart). -/
inductive Init where
  | number (c : ℝ)
  | array (l : List ℝ)

/-- Attributes of a `CubicParam`. -/
structure CubicParam where
  geometry : SpMat ℝ
  reverse : SpMat ℝ
  vec2f : SpMat ℝ
  vector : List ℝ
  k : ℝ
  lower : ℝ
  upper : ℝ

/-- `A @ v` for an array `v`; sizes that do not match raise. -/
noncomputable def matVec (A : SpMat ℝ) (v : List ℝ) : Except Err (List ℝ) :=
  if A.cols = v.length then .ok ((List.range A.rows).map (A.mulVec fun j => v.getD j 0))
  else .error .dims

/-- parametrization.py 212-222, "correct the initial value". -/
noncomputable def initVector (geometry reverse : SpMat ℝ) : Init → Except Err (List ℝ)
  | .number c => .ok (List.replicate geometry.cols (c * 1))
  | .array l =>
    if l.length = reverse.rows then .ok l
    else if l.length = reverse.cols then matVec reverse l
    else .error .initial

/-- parametrization.py 191-234, `CubicParam.__init__`; the bounds are numbers. -/
noncomputable def mkCubicParam (init : Init) (coarseX coarseY fineX fineY : List ℝ)
    (sym per : Bool × Bool) (periods : Nat × Nat) (lower upper : ℝ) (bounds : Option (ℝ × ℝ)) :
    Except Err CubicParam := do
  let (geometry, reverse) ←
    makeGeometryMatrixCubic (coarseX.length, coarseY.length) sym per periods false
  let vector ← initVector geometry reverse init
  let (phi2f, _, _) ← cubicMatrices fineX fineY coarseX coarseY per
  let vec2f ← phi2f.matmul geometry
  let (lo, hi) := match bounds with | some b => b | none => (lower, upper)
  return ⟨geometry, reverse, vec2f, vector, 4, lo, hi⟩

/-- The sigmoid of line 243. -/
noncomputable def sigmoid (k z : ℝ) : ℝ := 1 / (1 + Real.exp (-k * (2 * z - 1)))

/-- The factor of the gradient, lines 251-252. -/
noncomputable def sigmoidD (k z : ℝ) : ℝ :=
  2 * k * Real.exp (-k * (2 * z - 1)) / (1 + Real.exp (-k * (2 * z - 1))) ^ 2

open Classical in
/-- parametrization.py 240-245, `get_structure`. -/
noncomputable def CubicParam.getStructure (p : CubicParam) : Except Err (List ℝ) :=
  match matVec p.vec2f p.vector with
  | .error e => .error e
  | .ok z => .ok (if p.k ≠ 0 then z.map (sigmoid p.k) else z)

open Classical in
/-- parametrization.py 247-254, `calculate_gradient`. -/
noncomputable def CubicParam.calculateGradient (p : CubicParam) : Except Err (SpMat ℝ) :=
  match matVec p.vec2f p.vector with
  | .error e => .error e
  | .ok z =>
    if p.k ≠ 0 then (SpMat.diags z.length fun i => sigmoidD p.k (z.getD i 0)).matmul p.vec2f
    else .ok p.vec2f

/-- parametrization.py 236-238, `set_k`. -/
def CubicParam.setK (p : CubicParam) (k : ℝ) : CubicParam := { p with k := k }

/-- parametrization.py 256-258, `get_bounds`. -/
def CubicParam.getBounds (p : CubicParam) : List ℝ × List ℝ :=
  (List.replicate p.vector.length p.lower, List.replicate p.vector.length p.upper)

/-- parametrization.py 266-267, `decode`. -/
def CubicParam.decode (p : CubicParam) (v : List ℝ) : CubicParam := { p with vector := v }

/-- parametrization.py 260-261, `project`: `np.clip`. -/
noncomputable def CubicParam.project (p : CubicParam) : CubicParam :=
  { p with vector := p.vector.map fun x => min (max x p.lower) p.upper }

/-- parametrization.py 263-264 and 77-92, `to_vector`. -/
def CubicParam.toVector (p : CubicParam) : List ℝ := p.vector

/-- parametrization.py 94-97, `from_vector`. -/
noncomputable def CubicParam.fromVector (p : CubicParam) (v : List ℝ) : CubicParam :=
  (p.decode v).project

/-- parametrization.py 269-273, `serialize`. -/
def CubicParam.serialize (p : CubicParam) : List ℝ × ℝ := (p.toVector, p.k)

/-- parametrization.py 275-277, `deserialize`. -/
noncomputable def CubicParam.deserialize (p : CubicParam) (d : List ℝ × ℝ) : CubicParam :=
  (p.fromVector d.1).setK d.2

end Verif.Cubic
