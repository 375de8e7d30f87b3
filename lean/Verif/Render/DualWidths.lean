import Verif.Render.GridProps
/-
Model of the dual cell widths that simulations are set up with: `Grid.autoshifted_dxyz` and the argument `periodic` of
`Grid.__init__` (`spins/gridlock/grid.py`).
-/
namespace Verif.Render

variable {K : Type} [Field K] [LinearOrder K]

/-- One axis of `Grid.autoshifted_dxyz`: the widths of the complementary grid `(a + 1) % 3` along `a`, without the last one. The
shift is 1/2 for the Yee shifts (54-57), the only ones used. grid.py 208-218 -/
def autoshifted (periodic : Bool) (e : List K) : List K := (compWidths periodic (1 / 2) e).dropLast

/-- The argument `periodic`. -/
inductive PeriodicArg where
  | scalar (b : Bool)
  | list (l : Fin 3 → Bool)

/-- `self.periodic`. grid.py 358-361 -/
def periodicFlags : PeriodicArg → Fin 3 → Bool
  | .scalar b => fun _ => b
  | .list _ => fun _ => false

/-- The dual widths of a grid made with the argument `periodic`. -/
def dualWidths (arg : PeriodicArg) (e : Fin 3 → List K) : Fin 3 → List K := fun a => autoshifted (periodicFlags arg a) (e a)

end Verif.Render
