import Mathlib.Algebra.Order.Field.Basic
import Mathlib.Algebra.BigOperators.Group.List.Basic
/-
Model of `raster_1D` (`spins/gridlock/float_raster.py`) and of the rendering matrices of
`spins/goos_sim/maxwell/render.py`. Numbers are elements of an arbitrary ordered field (exact arithmetic).
-/
namespace Verif.Render

variable {K : Type} [Field K] [LinearOrder K]

/-- `np.digitize(x, bins)` for increasing bins: the number of bins not above `x`. (numpy raises for bins that are not
monotonic; the theorems are about increasing ones.) -/
def digitize (bins : List K) (x : K) : Nat := (bins.filter fun b => decide (b ≤ x)).length

/-- `array[i]` for an index in range. -/
def at' (l : List K) (i : Nat) : K := l.getD i 0

/-- `array[a:b] = v` -/
def setRange (l : List K) (a b : Nat) (v : K) : List K := l.mapIdx fun i x => if a ≤ i ∧ i < b then v else x

/-- `raster_1D`. float_raster.py 14-87. The index arithmetic of line 61, `clip(digitize - 1, 0, dim - 2)`, is done in the
natural numbers, where `0 - 1 = 0`. -/
def raster1D (poly grid : List K) : Option (List K) :=
  match poly with
  | [x0, x1] =>
    if grid.length < 2 then none
    else
      let dim := grid.length
      let p := if x0 > x1 then (x1, x0) else (x0, x1)
      if p.2 ≤ at' grid 0 ∨ p.1 ≥ at' grid (dim - 1) then some (List.replicate (dim - 1) 0)
      else
        let i0 := min (digitize grid p.1 - 1) (dim - 2)
        let i1 := min (digitize grid p.2 - 1) (dim - 2)
        let area := setRange (List.replicate (dim - 1) 0) (i0 + 1) i1 1
        let startFrac :=
          if p.1 < at' grid 0 then 1 else (at' grid (i0 + 1) - p.1) / (at' grid (i0 + 1) - at' grid i0)
        let endFrac :=
          if p.2 > at' grid (dim - 1) then 1 else (p.2 - at' grid i1) / (at' grid (i1 + 1) - at' grid i1)
        if i0 = i1 then some (area.set i0 (startFrac + endFrac - 1))
        else some ((area.set i0 startFrac).set i1 endFrac)
  | _ => none

/-! ### Rendering matrices of render.py -/

/-- The body of the loop over `j`: the triplets `(weight, grid index, shape index)` so far and `last_coord`.
render.py 211-217 -/
def cellStep (grid : List K) (i : Nat) (acc : List (K × Nat × Nat) × K) (j : Nat) : List (K × Nat × Nat) × K :=
  (if 1 ≤ j then acc.1 ++ [((at' grid j - acc.2) / (at' grid j - at' grid (j - 1)), j - 1, i)] else acc.1, at' grid j)

/-- The triplets of the shape cell `i`. render.py 204-223 -/
def shapeCell (shape grid : List K) (i : Nat) : List (K × Nat × Nat) :=
  let s := digitize grid (at' shape i)
  let t := digitize grid (at' shape (i + 1))
  if t < 1 then []
  else
    let r := (List.range' s (t - s)).foldl (cellStep grid i) ([], at' shape i)
    if r.2 ≠ at' shape (i + 1) ∧ t < grid.length then
      r.1 ++ [((at' shape (i + 1) - r.2) / (at' grid t - at' grid (t - 1)), t - 1, i)]
    else r.1

/-- `get_rendering_matrix_1d` before it is turned into a matrix. render.py 198-223 -/
def triplets (shape grid : List K) : List (K × Nat × Nat) :=
  (List.range (shape.length - 1)).flatMap (shapeCell shape grid)

/-- Entry of the sparse matrix made of triplets: the weights of repeated positions are added. -/
def entry (l : List (K × Nat × Nat)) (r c : Nat) : K := ((l.filter fun t => t.2.1 = r ∧ t.2.2 = c).map (·.1)).sum

/-- `get_rendering_matrix_1d`. render.py 198-226 -/
def renderMatrix1d (shape grid : List K) (r c : Nat) : K := entry (triplets shape grid) r c

/-- `scipy.sparse.kron(A, B)` for `B` with `rows` rows and `cols` columns. -/
def kron (A B : Nat → Nat → K) (rows cols : Nat) (r c : Nat) : K := A (r / rows) (c / cols) * B (r % rows) (c % cols)

/-- `get_rendering_matrix`. render.py 190-195 -/
def renderMatrix (shape grid : Fin 3 → List K) : Nat → Nat → K :=
  kron (kron (renderMatrix1d (shape 0) (grid 0)) (renderMatrix1d (shape 1) (grid 1))
      ((grid 1).length - 1) ((shape 1).length - 1))
    (renderMatrix1d (shape 2) (grid 2)) ((grid 2).length - 1) ((shape 2).length - 1)

end Verif.Render
