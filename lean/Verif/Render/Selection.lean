import Verif.Render.Raster
import Mathlib.Algebra.Module.Basic
/-
Model of `create_selection_matrix` (`spins/gridlock/selection_matrix.py`), for `reduced=False`.

A Yee cell is given by its component and its three indices, and a quadrant of the direct lattice by its two indices; the
flattening of the indices (`vec`, `ravel_multi_index`, `order='F'`) is not modelled, see C18 for `vec`. Permittivities are
elements of `E`, `mag` is `np.abs`.
-/
namespace Verif.Render

variable {K : Type} [Field K] [LinearOrder K]
variable {E : Type} [AddCommGroup E] [Module K E]

/-- The Yee cell of the component that contains the quadrant `(a, c)` of the direct lattice, for `nx` by `ny` Yee cells: the
indices are doubled (`for _ in (0, 1)`) and rolled by one for the components that are shifted, periodically.
selection_matrix.py 319-355, and the same for the differences 282-292 -/
def quadCell (nx ny : Nat) (comp : Fin 3) (a c : Nat) : Nat × Nat :=
  match comp with
  | 0 => (a / 2, ((c + 1) % (2 * ny)) / 2)
  | 1 => (((a + 1) % (2 * nx)) / 2, c / 2)
  | 2 => (((a + 1) % (2 * nx)) / 2, ((c + 1) % (2 * ny)) / 2)

/-- The permittivity of each component in each cell. -/
abbrev YeeField (E : Type) := Fin 3 → Nat → Nat → Nat → E

/-- `diff_grid`: the magnitude of the difference, summed along z. selection_matrix.py 281 -/
def diffGrid (mag : E → K) (nz : Nat) (bg fg : YeeField E) (comp : Fin 3) (ij : Nat × Nat) : K :=
  ((List.range nz).map fun z => mag (bg comp ij.1 ij.2 z - fg comp ij.1 ij.2 z)).sum

/-- All the quadrants. -/
def quads (nx ny : Nat) : List (Nat × Nat) := (List.range (2 * nx)).flatMap fun a => (List.range (2 * ny)).map fun c => (a, c)

/-- `np.max` -/
def listMax : List K → K
  | [] => 0
  | x :: xs => xs.foldl max x

/-- The threshold. selection_matrix.py 293 -/
def selThreshold (mag : E → K) (nx ny nz : Nat) (bg fg : YeeField E) : K :=
  1 / 1000 * listMax (([0, 1, 2] : List (Fin 3)).flatMap fun comp =>
    (quads nx ny).map fun q => diffGrid mag nz bg fg comp (quadCell nx ny comp q.1 q.2))

/-- `design_grid_flat`: the quadrants where all three components differ. selection_matrix.py 294 -/
def designQuad (mag : E → K) (nx ny nz : Nat) (bg fg : YeeField E) (a c : Nat) : Bool :=
  ([0, 1, 2] : List (Fin 3)).all fun comp =>
    decide (diffGrid mag nz bg fg comp (quadCell nx ny comp a c) > selThreshold mag nx ny nz bg fg)

/-- `calculate_design_bounds`: `((x_min, y_min), (x_max, y_max))`, or `none` for the error. selection_matrix.py 262-306 -/
def designBounds (mag : E → K) (nx ny nz : Nat) (bg fg : YeeField E) : Option ((Nat × Nat) × (Nat × Nat)) :=
  let indX := (List.range (2 * nx)).filter fun a => (List.range (2 * ny)).any fun c => designQuad mag nx ny nz bg fg a c
  let indY := (List.range (2 * ny)).filter fun c => (List.range (2 * nx)).any fun a => designQuad mag nx ny nz bg fg a c
  match indX.head?, indY.head?, indX.getLast?, indY.getLast? with
  | some x0, some y0, some x1, some y1 => some ((x0, y0), (x1, y1))
  | _, _, _, _ => none

/-- The quadrants in the bounds: the entries of the structure. selection_matrix.py 386-402 -/
def structQuads (b : (Nat × Nat) × (Nat × Nat)) : List (Nat × Nat) :=
  (List.range' b.1.1 (b.2.1 + 1 - b.1.1)).flatMap fun a => (List.range' b.1.2 (b.2.2 + 1 - b.1.2)).map fun c => (a, c)

/-- `direct2yee` before normalisation: a quarter for each quadrant of the cell. selection_matrix.py 334-357 -/
def quarter (nx ny : Nat) (comp : Fin 3) (ij q : Nat × Nat) : K := if quadCell nx ny comp q.1 q.2 = ij then 1 / 4 else 0

/-- `direct2yee_norm`. selection_matrix.py 406-407 -/
def selNorm (nx ny : Nat) (b : (Nat × Nat) × (Nat × Nat)) (comp : Fin 3) (ij : Nat × Nat) : K :=
  let s := ((structQuads b).map fun q => (quarter nx ny comp ij q : K)).sum
  if s = 0 then 1 else s

/-- `struct2yee`: the entry for a Yee cell and a quadrant of the structure. selection_matrix.py 405-410 -/
def struct2yee (nx ny : Nat) (b : (Nat × Nat) × (Nat × Nat)) (comp : Fin 3) (ij q : Nat × Nat) : K :=
  1 / selNorm nx ny b comp ij * quarter nx ny comp ij q

/-- `eps_bg + S @ struct` in a cell, where `S` is the result of `create_selection_matrix`. The structure has a value for each
quadrant in the bounds. selection_matrix.py 462-470 -/
def applySelection (mag : E → K) (nx ny nz : Nat) (bg fg : YeeField E) (struct : Nat × Nat → K) : Option (YeeField E) :=
  match designBounds mag nx ny nz bg fg with
  | none => none
  | some b => some fun comp i j z =>
    bg comp i j z +
      ((structQuads b).map fun q =>
        (struct2yee nx ny b comp (i, j) q * struct q) • (fg comp i j z - bg comp i j z)).sum

end Verif.Render
