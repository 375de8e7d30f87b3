import Verif.Render.Raster
import Mathlib.Algebra.Order.Floor.Defs
/-
Model of one axis of `Grid` (`spins/gridlock/grid.py`): shifted edges and widths, positions and indices, and the window of
cells a drawn layer is added to. Exact arithmetic in an ordered field.
-/
namespace Verif.Render

variable {K : Type} [Field K] [LinearOrder K]

/-- `diff(exyz[a])`. grid.py 60-66 (`Grid.dxyz`) -/
def widths (e : List K) : List K := List.zipWith (fun a b => b - a) e e.tail

/-- `Grid.dxyz_with_ghost`: the widths and one more, the first one if the axis is periodic and the last one otherwise.
grid.py 88-104 -/
def widthsGhost (periodic : Bool) (e : List K) : List K :=
  widths e ++ [if periodic then at' (widths e) 0 else at' (widths e) ((widths e).length - 1)]

/-- `Grid.shifted_exyz` on the primary grid. grid.py 143-146 -/
def primEdges (periodic : Bool) (shift : K) (e : List K) : List K :=
  List.zipWith (fun x d => x + d * shift) e (widthsGhost periodic e)

/-- `Grid.shifted_exyz` on the complementary grid: one more cell at the beginning, unless the shift is zero.
grid.py 147-157 -/
def compEdges (periodic : Bool) (shift : K) (e : List K) : List K :=
  let d := widthsGhost periodic e
  let s := (at' e 0 - at' d (d.length - 1) * shift) :: List.zipWith (fun x d => x + d * shift) e d
  if shift = 0 then s.tail else s

/-- `Grid.shifted_dxyz` on the primary grid. grid.py 174-177 -/
def primWidths (periodic : Bool) (shift : K) (e : List K) : List K :=
  let d := widthsGhost periodic e
  List.zipWith (fun a b => a * (1 - shift) + b * shift) d.dropLast d.tail

/-- `Grid.shifted_dxyz` on the complementary grid. grid.py 178-190 -/
def compWidths (periodic : Bool) (shift : K) (e : List K) : List K :=
  let d := widthsGhost periodic e
  let s := (at' d (d.length - 1) * (1 - shift) + at' d 0 * shift) ::
    List.zipWith (fun a b => a * (1 - shift) + b * shift) d.dropLast d.tail
  if shift = 0 then s.tail else s

/-- One axis of `Grid.pos2ind(..., round_ind=True, check_bounds=False)`: the cell of the edges `s`, clipped into the grid
(`clip(digitize - 1, 0, size - 2)`, in the natural numbers). grid.py 299-307 -/
def pos2ind (s : List K) (r : K) : Nat := min (digitize s r - 1) (s.length - 2)

/-- The bounds check of `Grid.pos2ind`: whether the position is accepted. `n` is the number of cells of the axis.
grid.py 292-297 -/
def inBounds (n : Nat) (s : List K) (r : K) : Bool := ¬ (n > 1 ∧ (r < at' s 0 ∨ r > at' s (s.length - 1)))

/-- `np.clip(x, lo, hi)`. -/
def clip (x lo hi : K) : K := min (max x lo) hi

/-- One axis of `Grid.pos2ind(..., round_ind=False)`: the cell and the position inside it. A position below the first edge
has cell -1 before clipping and one above the last edge has a cell beyond the last; these are not interpolated. `w` are
the widths given by `shifted_dxyz`. grid.py 299-318 -/
def pos2indFrac (s w : List K) (r : K) : K :=
  let d := digitize s r
  if d = 0 ∨ d - 1 ≠ pos2ind s r then (pos2ind s r : K)
  else clip (((d - 1 : Nat) : K) + (r - at' s (d - 1)) / at' w (d - 1)) 0 ((s.length - 1 : Nat) : K)

/-- One axis of `Grid.ind2pos(..., round_ind=False)`: `np.interp(ind, arange(size) - 0.5, s)`, linear between the points
and constant outside. grid.py 260-266 -/
def ind2pos [FloorSemiring K] (s : List K) (ind : K) : K :=
  let y := ind + 1 / 2
  if y ≤ 0 then at' s 0
  else if ((s.length - 1 : Nat) : K) ≤ y then at' s (s.length - 1)
  else
    let i := ⌊y⌋₊
    at' s i + (y - (i : K)) * (at' s (i + 1) - at' s i)

/-! ### `render_polygon` along the extrusion axis -/

/-- `row[lo : lo + len(w)] += w`. numpy raises if the slice and `w` have different lengths (lengths one are broadcast,
which is not modelled and does not occur). -/
def addWindow (row : List K) (lo hi : Nat) (w : List K) : Option (List K) :=
  if w.length = min (hi + 1) row.length - lo then
    some (row.mapIdx fun k x => if lo ≤ k ∧ k < hi + 1 then x + at' w (k - lo) else x)
  else none

/-- The window of cells along one axis for an object between the positions `r0` and `r1`: the first and the last cell, and
the edges of the complementary grid around them. `sp` and `sc` are the shifts of the primary and of the complementary grid
along the axis. grid.py 824-862 and 867-880 -/
def axisWindow (periodic : Bool) (sp sc : K) (e : List K) (r0 r1 : K) : Nat × Nat × List K :=
  let n := e.length - 1
  let compShape := if sc = 0 then n + 2 else n + 1
  let prim := primEdges periodic sp e
  let lo := pos2ind prim r0
  let hi := min (pos2ind prim r1 + 1) (n - 1)
  let compHi := min (hi + 1) (compShape - 1)
  (lo, hi, ((compEdges periodic sc e).drop lo).take (compHi + 1 - lo))

/-- What is left of a number when numpy casts it to an integer: it is rounded towards zero. -/
def truncate [FloorRing K] (x : K) : K := if 0 ≤ x then (⌊x⌋ : K) else (⌈x⌉ : K)

/-- The window along the extrusion axis. `get_zi` inserts the height into `[0, 0]` with `np.insert`, which casts it to the
type of that list, an integer. grid.py 801-812 and 867-880 -/
def zWindow [FloorRing K] (periodic : Bool) (sp sc : K) (e : List K) (z0 z1 : K) : Nat × Nat × List K :=
  axisWindow periodic sp sc e (truncate (min z0 z1)) (truncate (max z0 z1))

/-- The weights along the extrusion axis that `render_polygon` computes for the layer between `z0` and `z1`, as a change
of a row of zeros: the window of cells of the primary grid, the edges of the complementary grid around them, and
`raster_1D` on these edges. grid.py 864-893 -/
def axisWeights [FloorRing K] (periodic : Bool) (sp sc : K) (e : List K) (z0 z1 : K) : Option (List K) :=
  let w := zWindow periodic sp sc e z0 z1
  match raster1D [z0, z1] w.2.2 with
  | none => none
  | some v => addWindow (List.replicate (e.length - 1) 0) w.1 w.2.1 v

end Verif.Render
