import Verif.Render.Raster
import Mathlib.Data.Real.Basic
import Mathlib.Algebra.Order.Archimedean.Real.Basic
/-
Model of `GratingParam` (`spins/invdes/parametrization/grating_parametrization.py`). Numbers are exact real numbers; `none` is
an exception.
-/
namespace Verif.Grating
open Verif.Render

/-- The state of a `GratingParam`. 40-74 -/
structure GratingParam where
  edges : List ℝ
  numPixels : Nat
  inverted : Bool

/-- `np.sort` -/
noncomputable def npSort (l : List ℝ) : List ℝ := l.mergeSort fun a b => decide (a ≤ b)

/-- `GratingParam.__init__`. 40-74 -/
noncomputable def mkGrating (initial : List ℝ) (numPixels : Nat) (inverted : Bool) : Option GratingParam :=
  if initial.length % 2 = 1 then none else some ⟨npSort initial, numPixels, inverted⟩

/-- `GratingParam.encode`. 179-186 -/
def GratingParam.encode (p : GratingParam) : List ℝ := p.edges

/-- `GratingParam.decode`. 188-194 -/
noncomputable def GratingParam.decode (p : GratingParam) (v : List ℝ) : GratingParam := { p with edges := npSort v }

/-- The teeth: the pairs of `edges[0::2]` and `edges[1::2]`. (For an odd number of edges, which `decode` does not reject, numpy
mostly raises; the last edge is ignored here.) -/
def teeth : List ℝ → List (ℝ × ℝ)
  | a :: b :: l => (a, b) :: teeth l
  | _ => []

/-- `self._x_coords` -/
def xCoords (n : Nat) : List ℝ := (List.range (n + 1)).map fun i : Nat => (i : ℝ)

/-- One turn of the loop: `pixel_vals += raster_1D([center - 0.5 * width, center + 0.5 * width], x_coords)`. 86-98 -/
noncomputable def addTooth (n : Nat) (vals : List ℝ) (t : ℝ × ℝ) : Option (List ℝ) :=
  let width := t.2 - t.1
  let center := 0.5 * (t.2 + t.1)
  (raster1D [center - 0.5 * width, center + 0.5 * width] (xCoords n)).map fun r => List.zipWith (· + ·) vals r

/-- `GratingParam.get_structure`. 76-102 -/
noncomputable def GratingParam.getStructure (p : GratingParam) : Option (List ℝ) :=
  ((teeth p.edges).foldlM (addTooth p.numPixels) (List.replicate p.numPixels 0)).map fun vals =>
    if p.inverted then vals.map fun v => 1 - v else vals

/-- One turn of the loop of `_jacobian_vec_prod`: `edge_index`, `edge`, `vec_val`. 149-164 -/
noncomputable def jacStep (p : GratingParam) (acc : List ℝ) (x : (ℝ × ℝ) × Nat) : List ℝ :=
  let dir : ℝ := if x.2 % 2 = 0 then 1 else -1
  let dir := if p.inverted then -dir else dir
  let k := ⌊x.1.1⌋
  if 0 ≤ x.1.1 ∧ x.1.1 < p.numPixels then acc.mapIdx fun i v => if (i : Int) = k then v - dir * x.1.2 else v else acc

/-- `_jacobian_vec_prod`. 127-166 -/
noncomputable def GratingParam.jacVec (p : GratingParam) (vec : List ℝ) : List ℝ :=
  ((p.edges.zip vec).zipIdx).foldl (jacStep p) (List.replicate p.numPixels 0)

/-- `mat[i, j]` of `GratingParam.calculate_gradient`. 172-177 -/
noncomputable def GratingParam.jacobian (p : GratingParam) (i j : Nat) : ℝ :=
  (p.jacVec ((List.replicate p.edges.length 0).set j 1)).getD i 0

end Verif.Grating
