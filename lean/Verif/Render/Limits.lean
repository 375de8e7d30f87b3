import Verif.Render.Grid
/-
Model of the limits of the cell sizes of a grid (spins/gridlock/grid.py 117-128).
-/
namespace Verif.Render
variable {K : Type} [Field K] [LinearOrder K]

/-- `Grid.dxyz_limits` along one axis: the smallest and the largest cell. `none` stands for the `ValueError` that `min` raises
for an axis without cells. The three axes are treated alike. grid.py 117-128 -/
def dxyzLimits (e : List K) : Option (K × K) :=
  match widths e with
  | [] => none
  | d :: ds => some (ds.foldl min d, ds.foldl max d)

end Verif.Render
