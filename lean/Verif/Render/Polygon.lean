import Verif.Render.Grid
import Mathlib.Data.List.Sort
import Mathlib.Data.List.Dedup
/-
Model of `raster_2D` (`spins/gridlock/float_raster.py` 90-476), which finds for each pixel of a grid the part covered by a
polygon. Exact arithmetic in an ordered field. A point is a pair `(x, y)`; the code keeps the points as complex numbers
`x + 1j * y` after the intersections have been found.
-/
namespace Verif.Render.Polygon

open Verif.Render

variable {K : Type} [Field K] [LinearOrder K]

/-- What `raster_2D` raises. -/
inductive Err
  /-- `ValueError` for a grid of fewer than two edges (437-440) and numpy's own for the smallest of no numbers (287). -/
  | valueError
  /-- `zeros` is not defined in the module (447). -/
  | nameError
  deriving DecidableEq

/-- The intersection of the segment from `p` to `q` with the segment from `b.1` to `b.2`: its distance from `p` as a
fraction of the length of the first segment, and the point. `none` is a `False` of the adjacency matrix. If the
denominator is zero then both fractions are `inf`, `-inf` or `nan` and at least one of the comparisons of 233-234 is
false. `_compute_intersections`, float_raster.py 198-243. -/
def intersect (p q : K × K) (b : (K × K) × (K × K)) : Option (K × (K × K)) :=
  let dx := b.1.1 - p.1
  let dy := b.1.2 - p.2
  let dxa := q.1 - p.1
  let dya := q.2 - p.2
  let dxb := b.2.1 - b.1.1
  let dyb := b.2.2 - b.1.2
  let den := dyb * dxa - dxb * dya
  if den = 0 then none
  else
    let fa := (dx * dyb - dy * dxb) / den
    let fb := (dx * dya - dy * dxa) / den
    if 0 ≤ fa ∧ fa ≤ 1 ∧ 0 ≤ fb ∧ fb ≤ 1 then some (fa, (p.1 + dxa * fa, p.2 + dya * fa)) else none

/-- The smallest and the largest number of a list that begins with `c`. float_raster.py 287-288 -/
def lowest (c : K) (l : List K) : K := l.foldl min c
def highest (c : K) (l : List K) : K := l.foldl max c

/-- The lines of the local grid along one axis: the two ends of the bounding box and the lines of the grid between them.
`np.unique` also sorts them; the order is of no importance, since the intersections are sorted in the end, and the first
and the last one are the ends of the bounding box, which `gridLines` uses. float_raster.py 290-303 -/
def localGrid (lo hi : K) (grid : List K) : List K :=
  (lo :: (grid.filter fun c => decide (lo ≤ c ∧ c ≤ hi)) ++ [hi]).dedup

/-- The grid lines: the horizontal ones, then the vertical ones. float_raster.py 318-327 -/
def gridLines (xlo xhi ylo yhi : K) (gx gy : List K) : List ((K × K) × (K × K)) :=
  ((localGrid ylo yhi gy).map fun y => ((xlo, y), (xhi, y))) ++
    (localGrid xlo xhi gx).map fun x => ((x, ylo), (x, yhi))

/-- A point clipped to the grid. float_raster.py 341-343 -/
def clipPoint (gx gy : List K) (p : K × K) : K × K :=
  (clip p.1 (at' gx 0) (at' gx (gx.length - 1)), clip p.2 (at' gy 0) (at' gy (gy.length - 1)))

/-- The intersections of one segment of the polygon with the grid lines, by their distance from its first point. `argsort`
does not keep the order of equal distances, but these belong to the same point. float_raster.py 334-355 -/
def crossings (lines : List ((K × K) × (K × K))) (p q : K × K) : List (K × (K × K)) :=
  (lines.filterMap (intersect p q)).insertionSort fun a b => a.1 ≤ b.1

/-- A row of `poly_xy_with_inter`, of which only the retained points are kept. float_raster.py 370-390 -/
def expandEdge (gx gy : List K) (lines : List ((K × K) × (K × K))) (e : (K × K) × (K × K)) : List (K × K) :=
  e.1 :: (crossings lines e.1 e.2).map fun c => clipPoint gx gy c.2

/-- Whether a point is on the grid. float_raster.py 393-396 -/
def onGrid (gx gy : List K) (p : K × K) : Bool :=
  decide (p.1 ≤ at' gx (gx.length - 1) ∧ at' gx 0 ≤ p.1 ∧ p.2 ≤ at' gy (gy.length - 1) ∧ at' gy 0 ≤ p.2)

/-- The points of the list which differ from the one before them, which is `c` for the first. float_raster.py 399-400 -/
def uniqAfter (c : K × K) : List (K × K) → List (K × K)
  | [] => []
  | p :: l => if p = c then uniqAfter p l else p :: uniqAfter p l

/-- The points which differ from the one before them; the first one is kept. float_raster.py 399-400 -/
def uniq : List (K × K) → List (K × K)
  | [] => []
  | p :: l => p :: uniqAfter p l

/-- The segments of the polygon: each vertex with the next one. float_raster.py 279-281 -/
def edges (v : List (K × K)) : List ((K × K) × (K × K)) := v.zip (v.tail ++ v.head?.toList)

/-- `_expand_polygon_vertices`. float_raster.py 246-402 -/
def expand (poly : List (K × K)) (gx gy : List K) : Except Err (List (K × K)) :=
  match poly with
  | [] => .error .valueError
  | p :: l =>
    let xs := l.map Prod.fst
    let ys := l.map Prod.snd
    let lines := gridLines (lowest p.1 xs) (highest p.1 xs) (lowest p.2 ys) (highest p.2 ys) gx gy
    .ok (uniq (((edges (p :: l)).flatMap (expandEdge gx gy lines)).filter (onGrid gx gy)))

/-- The middle of a segment. float_raster.py 450 -/
def middle (s : (K × K) × (K × K)) : K × K := ((s.1.1 + s.2.1) * (1 / 2), (s.1.2 + s.2.2) * (1 / 2))

/-- Whether the segment is not on the right or top edge. float_raster.py 455-457 -/
def nonEdge (gx gy : List K) (s : (K × K) × (K × K)) : Bool :=
  decide ((middle s).1 < at' gx (gx.length - 1) ∧ (middle s).2 < at' gy (gy.length - 1))

/-- The pixel of a segment. The points are on the grid, so `digitize` is at least 1. float_raster.py 460-461 -/
def pixelOf (gx gy : List K) (s : (K × K) × (K × K)) : Nat × Nat :=
  (digitize gx (middle s).1 - 1, digitize gy (middle s).2 - 1)

/-- The cover of a segment. float_raster.py 463 -/
def cover (gx gy : List K) (s : (K × K) × (K × K)) : K :=
  (s.2.2 - s.1.2) / at' (widths gy) (pixelOf gx gy s).2

/-- The area of a segment. float_raster.py 464-465 -/
def area (gx gy : List K) (s : (K × K) × (K × K)) : K :=
  ((middle s).1 - at' gx (pixelOf gx gy s).1) * cover gx gy s / at' (widths gx) (pixelOf gx gy s).1

/-- The sum of the values of a pixel (`coo_matrix` adds the values of repeated entries). float_raster.py 472-474 -/
def pixelSum (gx gy : List K) (f : (K × K) × (K × K) → K) (segs : List ((K × K) × (K × K))) (i j : Nat) : K :=
  ((segs.filter fun s => decide (pixelOf gx gy s = (i, j))).map f).sum

/-- The values of the pixels for a list of vertices. float_raster.py 449-476 -/
def pixels (gx gy : List K) (vs : List (K × K)) : List (List K) :=
  let segs := (edges vs).filter (nonEdge gx gy)
  (List.range (gx.length - 1)).map fun i => (List.range (gy.length - 1)).map fun j =>
    |pixelSum gx gy (fun s => - area gx gy s) segs i j +
      ((List.range (i + 1)).map fun k => pixelSum gx gy (cover gx gy) segs k j).sum|

/-- `raster_2D`. The polygon is given by its columns, so that it has two rows. float_raster.py 405-476 -/
def raster2D (poly : List (K × K)) (gx gy : List K) : Except Err (List (List K)) :=
  if gx.length < 2 ∨ gy.length < 2 then .error .valueError
  else
    match expand poly gx gy with
    | .error e => .error e
    | .ok [] => .error .nameError
    | .ok (v :: vs) => .ok (pixels gx gy (v :: vs))

end Verif.Render.Polygon
