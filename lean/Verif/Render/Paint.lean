import Verif.Render.Grid
import Mathlib.Algebra.Module.Basic
import Mathlib.Data.List.Dedup
import Mathlib.Data.List.Sort
/-
Model of drawing and rendering with `Grid` (`spins/gridlock/grid.py`) and of `RenderShape`
(`spins/goos_sim/maxwell/render.py`): shapes are cut into layers, in each layer the later shapes are removed from the earlier
ones, and the pieces are added up with their weights.

The polygon library gdspy (boolean difference of two polygons) and the rastering of a polygon in the plane (`raster_2D`) are
parameters.
-/
namespace Verif.Render

variable {K : Type} [Field K] [LinearOrder K]
variable {R E : Type}

/-- A polygon drawn with `draw_polygon`, `draw_cuboid`, `draw_cylinder`, ...: its outline in the plane, its extent along the
extrusion axis (`list_z`), and its permittivity. grid.py 466-512 -/
structure Drawn (K R E : Type) where
  region : R
  z0 : K
  z1 : K
  eps : E

/-- The checks of `draw_polygon`: more than two points and a positive thickness. `points` is the number of points.
grid.py 484-494 -/
def drawPolygon (list : List (Drawn K R E)) (region : R) (points : Nat) (center thickness : K) (eps : E) :
    Option (List (Drawn K R E)) :=
  if points ≤ 2 then none
  else if thickness ≤ 0 then none
  else some (list ++ [⟨region, center - 1 / 2 * thickness, center + 1 / 2 * thickness, eps⟩])

/-- What is used of gdspy and numpy on polygons: `fast_boolean(p, q, 'not')` (no polygons if it returns `None`), and
whether `check_bounding_box` finds the polygons apart. grid.py 709-745 -/
structure Polygons (R : Type) where
  diff : R → R → List R
  apart : R → R → Bool

/-- `compute_intersection`. grid.py 728-745 -/
def cut (g : Polygons R) (p q : R) : List R := if g.apart p q then [p] else g.diff p q

/-- One more polygon of a layer: what is left of the earlier ones, then the new one. grid.py 755-768 -/
def reduceStep (g : Polygons R) (red : List (R × E)) (new : R × E) : List (R × E) :=
  (red.flatMap fun r => (cut g r.1 new.1).map fun p => (p, r.2)) ++ [new]

/-- `remove_intersection` for one layer. grid.py 748-772 -/
def reduceLayer (g : Polygons R) : List (R × E) → List (R × E)
  | [] => []
  | x :: xs => xs.foldl (reduceStep g) [x]

/-- `layer_z`: the different z-coordinates in order (`np.sort(np.unique(...))`). grid.py 689 -/
def layerZ (l : List (Drawn K R E)) : List K :=
  (l.flatMap fun s => [s.z0, s.z1]).dedup.insertionSort (· ≤ ·)

/-- `np.searchsorted(l, x)`: the number of elements below `x`. -/
def searchsorted (l : List K) (x : K) : Nat := (l.filter fun y => decide (y < x)).length

/-- The loop of `compute_layers` over the drawn polygons. grid.py 693-697 -/
def addToLayers (lz : List K) (layers : List (List (R × E))) (s : Drawn K R E) : List (List (R × E)) :=
  layers.mapIdx fun k l =>
    if searchsorted lz s.z0 ≤ k ∧ k < searchsorted lz s.z1 then l ++ [(s.region, s.eps)] else l

/-- `compute_layers`. grid.py 680-697 -/
def computeLayers (l : List (Drawn K R E)) : List (List (R × E)) :=
  l.foldl (addToLayers (layerZ l)) (List.replicate ((layerZ l).length - 1) [])

section
variable [AddCommGroup E] [Module K E]

/-- `render_polygon` for one cell: the permittivity and the background fraction of the cell. `w` is the weight of the polygon
in the cell, the product of its weight in the plane and along the extrusion axis. grid.py 882-899 -/
def renderPolygon (acc : E × K) (w : K) (eps : E) : E × K := (acc.1 + w • eps, acc.2 - w)

/-- The loops of `render` over layers and polygons for one cell, from the layer number `i`. `raster` gives the weight in
the plane and `wz a b` the weight of the layer from `a` to `b` along the extrusion axis. grid.py 950-960 -/
def renderLayers (raster : R → K) (wz : K → K → K) (lz : List K) :
    List (List (R × E)) → Nat → E × K → E × K
  | [], _, acc => acc
  | l :: ls, i, acc =>
    renderLayers raster wz lz ls (i + 1)
      (l.foldl (fun acc p => renderPolygon acc (raster p.1 * wz (at' lz i) (at' lz (i + 1))) p.2) acc)

/-- `Grid.render` for one cell with background `bg`. grid.py 916-965 -/
def renderCell (g : Polygons R) (raster : R → K) (wz : K → K → K) (bg : E) (disableIntersection : Bool)
    (l : List (Drawn K R E)) : E :=
  let layers := if disableIntersection then computeLayers l else (computeLayers l).map (reduceLayer g)
  let r := renderLayers raster wz (layerZ l) layers 0 ((0 : E), (1 : K))
  r.1 + r.2 • bg

/-! ### RenderShape -/

/-- A shape given to `RenderShape`: a cuboid or a cylinder, or a pixelated shape. A pixelated shape draws a cuboid with the
lower material and returns an extra grid with its contrast times its values. `extra` is the value of the extra grid in
the cell. render.py 87-135 -/
structure RShape (K R E : Type) where
  drawn : Drawn K R E
  extra : Option E

/-- `RenderShape.eval` for one cell: everything is drawn and rendered, then the extra grids are added. (A cuboid
with a zero extent is not drawn, render.py 91.) render.py 51-68 -/
def renderShape (g : Polygons R) (raster : R → K) (wz : K → K → K) (bg : E) (l : List (RShape K R E)) : E :=
  (l.filterMap (·.extra)).foldl (· + ·) (renderCell g raster wz bg false (l.map (·.drawn)))

end
end Verif.Render
