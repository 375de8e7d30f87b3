import Verif.Render.Raster
import Mathlib.Algebra.Order.Floor.Defs
import Mathlib.Data.Complex.Basic
/-
Model of the pixels of `PixelatedContShapeFlow` (`spins/goos/shapes.py`) and of its rendering
(`spins/goos_sim/maxwell/render.py`).
-/
namespace Verif.Render

section
variable {K : Type} [Field K] [LinearOrder K] [FloorSemiring K]

/-- The number of pixels along an axis of extent `e`, for pixels of size `p`. shapes.py 254-256 -/
def numPixels (e p : K) : Nat :=
  let n := ⌈e / p⌉₊
  if (n : K) * p < e then n + 1 else n

/-- One axis of `PixelatedContShapeFlow.get_relative_edge_coords`. shapes.py 252-266 -/
def relEdges (e p : K) : List K :=
  let n := numPixels e p
  let coord := (List.range (n + 1)).map fun i : Nat => p * (i : K)
  let mid := (at' coord 0 + at' coord n) / 2
  ((coord.map fun c => c - mid).set 0 (-e / 2)).set n (e / 2)

/-- One axis of `PixelatedContShapeFlow.get_relative_cell_coords`. (The code after the first `return` is dead.)
shapes.py 206-221 -/
def relCells (e p : K) : List K :=
  List.zipWith (fun a b => (a + b) / 2) (relEdges e p).dropLast (relEdges e p).tail

/-- One axis of `PixelatedContShapeFlow.get_edge_coords`. shapes.py 268-272 -/
def absEdges (pos e p : K) : List K := (relEdges e p).map (· + pos)

/-- One axis of `PixelatedContShapeFlow.get_shape`. shapes.py 286-292 -/
def getShape (e p : K) : Nat :=
  let size := ⌊e / p⌋₊ + 1
  if p * ((size - 1 : Nat) : K) ≥ e then size - 1 else size
end

/-- One axis of `PixelatedContShapeFlowImpl.eval`: `contrast * mat @ array`. `rows` and `cols` are the size of the matrix.
render.py 121-135 -/
noncomputable def pixEval (mat : Nat → Nat → ℝ) (cols : Nat) (contrast : ℂ) (array : Nat → ℝ) (r : Nat) : ℂ :=
  ((List.range cols).map fun c => contrast * (mat r c : ℂ) * (array c : ℂ)).sum

/-- One turn of the loop of `PixelatedContShapeFlowImpl.grad`: `contrast * mat.T @ grid`, whose real part is added to the
gradient, which is then doubled if the values have a complex type. render.py 143-157 -/
noncomputable def pixGradStep (rows : Nat) (contrast : ℂ) (isComplex : Bool) (grad : Nat → ℝ)
    (axis : (Nat → Nat → ℝ) × (Nat → ℂ)) : Nat → ℝ := fun c =>
  let g := grad c + (((List.range rows).map fun r => contrast * (axis.1 r c : ℂ) * axis.2 r).sum).re
  if isComplex then g * 2 else g

/-- `PixelatedContShapeFlowImpl.grad`: the axes are pairs of a rendering matrix and the incoming gradient. render.py 137-159 -/
noncomputable def pixGrad (rows : Nat) (contrast : ℂ) (isComplex : Bool) (axes : List ((Nat → Nat → ℝ) × (Nat → ℂ))) :
    Nat → ℝ :=
  axes.foldl (pixGradStep rows contrast isComplex) fun _ => 0

end Verif.Render
