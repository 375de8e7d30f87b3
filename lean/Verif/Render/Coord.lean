import Verif.Render.Draw
/-
Model of finding the index of a single coordinate in a grid (spins/gridlock/grid.py 268-335), for the primary grid.
-/
namespace Verif.Render
open Verif.Render.Draw
variable {K : Type} [Field K] [LinearOrder K]

/-- `Grid.shifted_exyz(which_shifts, GridType.PRIM)` along one axis. Rows of shifts are numbered from zero; a negative number
is not modelled. grid.py 130-165 -/
def gridEdges (g : Grid3 K) (which : Option (Fin 3)) (a : Fin 3) : List K :=
  match which with
  | none => g.exyz a
  | some n => primEdges (g.periodic a) (g.shift n a) (g.exyz a)

/-- `Grid.pos2ind(r, which_shifts, GridType.PRIM, round_ind=True, check_bounds)`. A row of shifts that does not exist is
refused, and so is a position outside of the grid along any axis if the bounds are checked. The grid has three rows of shifts
here. grid.py 268-319 -/
def pos2ind3 (g : Grid3 K) (r : Fin 3 → K) (which : Option Nat) (check : Bool) : Except DrawErr (Fin 3 → Nat) :=
  let run (w : Option (Fin 3)) : Except DrawErr (Fin 3 → Nat) :=
    if check = true ∧ ∃ a, inBounds ((g.exyz a).length - 1) (gridEdges g w a) (r a) = false then .error .gridError
    else .ok fun a => pos2ind (gridEdges g w a) (r a)
  match which with
  | none => run none
  | some n => if h : n < 3 then run (some ⟨n, h⟩) else .error .gridError

/-- `Grid.coord2ind` with `round_ind=True`: the other coordinates are those of the centre. grid.py 321-335 -/
def coord2ind (g : Grid3 K) (x : K) (axis : Fin 3) (which : Option Nat) (check : Bool) : Except DrawErr Nat :=
  match pos2ind3 g (fun a => if a = axis then x else center g a) which check with
  | .error e => .error e
  | .ok i => .ok (i axis)

end Verif.Render
