import Mathlib.Analysis.Complex.Basic
/-
Model of overlaps that are imported from a file: `spins/invdes/problem_graph/creator_em.py` 585-666 (`ImportOverlap`), with the
interpolation of scipy's `RegularGridInterpolator` for the method 'linear'. Coordinates and data are exact numbers.
-/
namespace Verif.Fdfd.Import

/-- `find_indices` of scipy: `searchsorted(grid, x) - 1`, moved into the range of the cells. Newer versions find the cell to the
right of a sample instead of the left one; the interpolated value is the same. -/
noncomputable def cellOf (g : List ℝ) (x : ℝ) : Nat :=
  open Classical in min (g.length - 2) (g.countP (fun y => decide (y < x)) - 1)

/-- `norm_distances`: `(x - grid[i]) / (grid[i + 1] - grid[i])`. -/
noncomputable def normDistance (g : List ℝ) (x : ℝ) : ℝ :=
  (x - g.getD (cellOf g x) 0) / (g.getD (cellOf g x + 1) 0 - g.getD (cellOf g x) 0)

/-- `out_of_bounds` along one axis: `x < grid[0]` or `x > grid[-1]`. -/
def OutOfBounds (g : List ℝ) (x : ℝ) : Prop := x < g.getD 0 0 ∨ g.getD (g.length - 1) 0 < x

/-- The data of one component. -/
abbrev Data := Nat → Nat → Nat → ℂ

open Classical in
/-- The interpolation at a point: the sum over the edges (`itertools.product`) of the products of weights, and `fill_value=0.0` for
points out of bounds (645-649, 661). -/
noncomputable def interp (g : Fin 3 → List ℝ) (v : Data) (x : Fin 3 → ℝ) : ℂ :=
  if ∃ a, OutOfBounds (g a) (x a) then 0
  else
    let w := fun (a : Fin 3) (e : Bool) => (if e then normDistance (g a) (x a) else 1 - normDistance (g a) (x a) : ℝ)
    let i := fun (a : Fin 3) (e : Bool) => if e then cellOf (g a) (x a) + 1 else cellOf (g a) (x a)
    ∑ e0 : Bool, ∑ e1 : Bool, ∑ e2 : Bool, ((w 0 e0 * w 1 e1 * w 2 e2 : ℝ) : ℂ) * v (i 0 e0) (i 1 e1) (i 2 e2)

/-- What the file holds: coordinates relative to the centre, and the three components of the field. -/
structure File where
  coords : Fin 3 → List ℝ
  field : Fin 3 → Data

/-- The coordinates around the centre (614-618), extended by half a cell of the simulation's first cell on both sides if there is
only one (627-636). -/
noncomputable def coords (f : File) (center dx0 : Fin 3 → ℝ) (a : Fin 3) : List ℝ :=
  match (f.coords a).map (· + center a) with
  | [c] => [c - dx0 a / 2, c, c + dx0 a / 2]
  | l => l

/-- The data, repeated along the axes with one coordinate (638-640). -/
def repeated (f : File) (k : Fin 3) : Data := fun i j l =>
  f.field k (if (f.coords 0).length = 1 then 0 else i) (if (f.coords 1).length = 1 then 0 else j)
    (if (f.coords 2).length = 1 then 0 else l)

/-- The cell sizes and centres of the grid from its edges (grid.py 60-75). -/
noncomputable def cellSize (edges : Fin 3 → List ℝ) (a : Fin 3) (n : Nat) : ℝ := (edges a).getD (n + 1) 0 - (edges a).getD n 0
noncomputable def cellCenter (edges : Fin 3 → List ℝ) (a : Fin 3) (n : Nat) : ℝ := (edges a).getD n 0 + cellSize edges a n / 2

/-- `xyz + dxyz * shifts[k]` (653-655) with `Yee_Shifts_E` (grid.py 54-55). -/
noncomputable def yeePos (edges : Fin 3 → List ℝ) (k a : Fin 3) (n : Nat) : ℝ :=
  cellCenter edges a n + cellSize edges a n * (if a = k then 1 / 2 else 0)

/-- `ImportOverlap.__call__` (598-666): component `k` at the cell `c`. -/
noncomputable def importOverlap (f : File) (center : Fin 3 → ℝ) (edges : Fin 3 → List ℝ) (k : Fin 3) (c : Fin 3 → Nat) : ℂ :=
  interp (coords f center fun a => cellSize edges a 0) (repeated f k) fun a => yeePos edges k a (c a)

end Verif.Fdfd.Import
