import Verif.Render.Grid
import Mathlib.Algebra.Order.Floor.Semiring
/-
Model of one axis of `create_region_slices` (spins/invdes/problem_graph/grid_utils.py 13-68 and its copy
spins/goos_sim/maxwell/simspace.py 117-172) and of the functions that make the edges of a uniform grid. Exact arithmetic in an
ordered field.
-/
namespace Verif.Render

variable {K : Type} [Field K] [LinearOrder K]

/-- One entry of `Grid.xyz`, the centre of cell `k`. gridlock/grid.py 69-75 -/
def centre (s : List K) (k : Nat) : K := at' s k + (at' s (k + 1) - at' s k) / 2

/-- One axis of `create_region_slices`: first index and the one after the last, `none` for the `GridError` of `pos2ind`. The
three axes are independent, except that an exception of one ends the call. grid_utils.py 37-68 -/
def regionSlice (s : List K) (center extent : K) : Option (Nat × Nat) :=
  let n := s.length - 1
  let lo := center - extent / 2
  let hi := center + extent / 2
  let loClip := max (centre s 0) lo
  let hiClip := min (centre s (n - 1)) hi
  if inBounds n s loClip = false then none
  else if inBounds n s hiClip = false then none
  else
    let indMin := if loClip > lo then 0 else pos2ind s loClip
    let indMax := if hiClip < hi then pos2ind s hiClip + 1 else pos2ind s hiClip
    some (indMin, max indMax (indMin + 1))

/-- `np.arange(start, stop, step)`. -/
def arange [FloorSemiring K] (start stop step : K) : List K :=
  (List.range ⌈(stop - start) / step⌉₊).map fun (i : Nat) => start + (i : K) * step

/-- The extent `create_edge_coords` uses for an axis; `sym` says that the axis has a reflection symmetry.
goos_sim/maxwell/simspace.py 80-96. `(ext / (2 * dx)).is_integer()` is decided without rounding errors. -/
def edgeExtent [FloorSemiring K] (extent dx : K) (sym : Bool) : K :=
  let ext := max extent dx
  if sym then if ((⌊ext / (2 * dx)⌋₊ : Nat) : K) = ext / (2 * dx) then ext else ((⌊ext / (2 * dx)⌋₊ : Nat) : K) * 2 * dx else ext

/-- One axis of `create_edge_coords`. goos_sim/maxwell/simspace.py 65-111 -/
def goosEdges [FloorSemiring K] (center extent dx : K) (sym : Bool) : List K :=
  let ext := edgeExtent extent dx sym
  let e := arange (center - ext / 2) (center + ext / 2 + dx / 2) dx
  e.map fun x => x - (at' e 0 + at' e (e.length - 1)) / 2 + center

/-- One axis of `_create_edge_coords`. invdes/problem_graph/simspace.py 173-193 -/
def invdesEdges [FloorSemiring K] (center extent dx : K) : List K :=
  arange (center - extent / 2 - dx / 2) (center + extent / 2 + dx / 2) dx

end Verif.Render
