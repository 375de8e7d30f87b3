import Verif.Render.Selection
import Verif.Render.Stack
import Mathlib.Algebra.BigOperators.Group.Finset.Basic
import Mathlib.Data.Int.Log
/-
Model of `create_selection_matrix(reduced=True)` and of the simulation space of a plan.
spins/gridlock/selection_matrix.py 91-259, 455-460; spins/invdes/problem_graph/simspace.py 37-170, 402-424

As in `Selection.lean`, cells are given by their indices and not by their place in a flattened vector, and `mag` is
`np.abs`.
-/
namespace Verif.Render.Reduced

open Verif.Render

variable {K : Type} [Field K] [LinearOrder K]
variable {E : Type} [AddCommGroup E] [Module K E]

/-- The columns of cells that count as part of the design: at some height the differences of the three components add up to
more than `1e-6`. selection_matrix.py 198-204 -/
def differs (mag : E → K) (nz : Nat) (bg fg : YeeField E) (i j : Nat) : Bool :=
  (List.range nz).any fun z => decide (1 / 1000000 <
    mag (bg 0 i j z - fg 0 i j z) + mag (bg 1 i j z - fg 1 i j z) + mag (bg 2 i j z - fg 2 i j z))

/-- `calculate_design_bounds_yee`, `none` for the exception. selection_matrix.py 185-218 -/
def yeeBounds (mag : E → K) (nx ny nz : Nat) (bg fg : YeeField E) : Option ((Nat × Nat) × (Nat × Nat)) :=
  let indX := (List.range nx).filter fun i => (List.range ny).any fun j => differs mag nz bg fg i j
  let indY := (List.range ny).filter fun j => (List.range nx).any fun i => differs mag nz bg fg i j
  match indX.head?, indY.head?, indX.getLast?, indY.getLast? with
  | some x0, some y0, some x1, some y1 => some ((x0, y0), (x1, y1))
  | _, _, _, _ => none

/-- `map_x`, `map_y` and `map_z`: the cell to which a quadrant belongs. The indices are wrapped for the x- and the
y-component and clipped for the z-component. selection_matrix.py 126-156 -/
def quadrantCell (nx ny : Nat) (lo : Nat × Nat) (comp : Fin 3) (x y : Nat) : Nat × Nat :=
  match comp with
  | 0 => ((lo.1 + (x + 1) / 2 + (nx - 1)) % nx, (lo.2 + y / 2) % ny)
  | 1 => ((lo.1 + x / 2) % nx, (lo.2 + (y + 1) / 2 + (ny - 1)) % ny)
  | 2 => (min (lo.1 + x / 2) (nx - 1), min (lo.2 + y / 2) (ny - 1))

/-- The number of cells of the design along the axes. selection_matrix.py 110-114, 241 -/
def designArea (nx ny : Nat) (b : (Nat × Nat) × (Nat × Nat)) : Nat × Nat :=
  (min b.2.1 (nx - 1) + 1 - b.1.1, min b.2.2 (ny - 1) + 1 - b.1.2)

/-- `row_sums`. selection_matrix.py 135-163 -/
def rowSum (nx ny : Nat) (b : (Nat × Nat) × (Nat × Nat)) (comp : Fin 3) (ij : Nat × Nat) : K :=
  ∑ x ∈ Finset.range (2 * (designArea nx ny b).1), ∑ y ∈ Finset.range (2 * (designArea nx ny b).2),
    if quadrantCell nx ny b.1 comp x y = ij then 1 else 0

/-- `normalize_rows`. selection_matrix.py 162-166 -/
def rowFactor (nx ny : Nat) (b : (Nat × Nat) × (Nat × Nat)) (comp : Fin 3) (ij : Nat × Nat) : K :=
  if (rowSum nx ny b comp ij : K) ≠ 0 then 1 / rowSum nx ny b comp ij else rowSum nx ny b comp ij

/-- `eps_bg + S @ struct` for `create_selection_matrix(…, reduced=True)`: the quadrants of each cell take the value of the
cell (`M.T`). selection_matrix.py 221-259 -/
def applyReduced (mag : E → K) (nx ny nz : Nat) (bg fg : YeeField E) (struct : Nat × Nat → K) : Option (YeeField E) :=
  match yeeBounds mag nx ny nz bg fg with
  | none => none
  | some b => some fun comp i j z => bg comp i j z +
      (∑ x ∈ Finset.range (2 * (designArea nx ny b).1), ∑ y ∈ Finset.range (2 * (designArea nx ny b).2),
        rowFactor nx ny b comp (i, j) * (if quadrantCell nx ny b.1 comp x y = (i, j) then 1 else 0) *
          struct (x / 2, y / 2)) • (fg comp i j z - bg comp i j z)

/-- `eps_bg + S @ struct` for the full direct matrix: a value for each component and cell. simspace.py 126-131 -/
def applyFull (bg fg : YeeField E) (struct : Fin 3 → Nat → Nat → Nat → K) : YeeField E :=
  fun comp i j z => bg comp i j z + struct comp i j z • (fg comp i j z - bg comp i j z)

/-! ### The simulation space -/

/-- `_round`, for values other than 0: Python's `round` to a number of decimals, which goes to the even neighbour from the
middle. `np.floor(np.log10(abs(value)))` is `Int.log 10`. Decimal numbers count as exact. simspace.py 158-170 -/
noncomputable def roundSig (digits : Int) (value : ℝ) : ℝ :=
  (Stack.around (value * (10 : ℝ) ^ (-Int.log 10 |value| + digits)) : ℝ) / (10 : ℝ) ^ (-Int.log 10 |value| + digits)

/-- A simulation space: its cache and `_design_dims`. -/
structure Space (I D : Type) where
  cache : List (ℝ × I)
  dims : Option D

open Classical in
/-- `SimulationSpace.__call__`. The function `make` makes the instance and its dimensions for a wavelength, or raises; it
stands for lines 112-147. simspace.py 96-149 -/
noncomputable def callSpace {I D Err : Type} (make : ℝ → Except Err (I × D)) (wlen : ℝ) (s : Space I D) :
    Except Err I × Space I D :=
  let w := roundSig 6 wlen
  match s.cache.find? fun e => decide (e.1 = w) with
  | some e => (.ok e.2, s)
  | none =>
    match make w with
    | .error e => (.error e, s)
    | .ok (i, d) => (.ok i, ⟨s.cache ++ [(w, i)], some d⟩)

/-- The constructor, which calls the new space at 1500 nm. simspace.py 40-66 -/
noncomputable def newSpace {I D Err : Type} (make : ℝ → Except Err (I × D)) : Except Err (Space I D) :=
  match callSpace make 1500 ⟨[], none⟩ with
  | (.error e, _) => .error e
  | (.ok _, s) => .ok s

/-- Calls one after another; those that raise are caught. -/
noncomputable def calls {I D Err : Type} (make : ℝ → Except Err (I × D)) (ws : List ℝ) (s : Space I D) : Space I D :=
  ws.foldl (fun s w => (callSpace make w s).2) s

/-- `get_fg_and_bg`: the permittivities for a structure of ones and for a structure of zeros. An instance is given by its
background and by `eps_bg + S @ struct`. simspace.py 402-424 -/
noncomputable def getFgAndBg {S D Err F : Type} (make : ℝ → Except Err ((F × (S → F)) × D)) (ones : S) (wlen : ℝ)
    (s : Space (F × (S → F)) D) : Except Err (F × F) :=
  match (callSpace make wlen s).1 with
  | .error e => .error e
  | .ok inst => .ok (inst.2 ones, inst.1)

end Verif.Render.Reduced
