import Verif.Render.Grid
import Verif.Render.Region
import Mathlib.Algebra.Order.Floor.Ring
/-
Model of `Grid.get_slice`, spins/gridlock/grid.py 970-1032. The planes along the normal are a function of their index; a plane is an array
with two indices. The grids are real, as they are made by `Grid.__init__`. Exact arithmetic.
-/
namespace Verif.Render.Slice
variable {K : Type} [Field K] [LinearOrder K] [FloorRing K]

/-- What leaves `get_slice`. `broadcast` is the `ValueError` of numpy for arrays of different shapes. -/
inductive SliceErr
  | gridError | indexError | broadcast
deriving DecidableEq

/-- The conversion of a float to an integer by numpy, towards zero. -/
def trunc (x : K) : Int := if 0 ≤ x then ⌊x⌋ else ⌈x⌉

/-- The planes and their weights (1006-1015): both neighbours of the index, or the plane itself. `s` and `w` are the edges and widths of
the axis with the shift. -/
def planes (s w : List K) (center : K) : List (Int × K) :=
  let c := pos2indFrac s w center
  if ⌊c⌋ ≠ ⌈c⌉ then [(⌊c⌋, 1 - (c - ⌊c⌋)), (⌈c⌉, c - ⌊c⌋)] else [(⌊c⌋, 1)]

/-- The number of entries of `a[::sp]`. -/
def sampled (m sp : Nat) : Nat := (m + sp - 1) / sp

/-- Whether an array of size `b` can be added into one of size `a`, along one axis. -/
def fits (a b : Nat) : Bool := b = a || b = 1

/-- One entry of an array of size `b` that is broadcast to another size. -/
def broadcastIdx (b i : Nat) : Nat := if b = 1 then 0 else i

/-- The loop over the planes (1022-1027), for one entry: the value, or the first exception. `n` planes of `m₁ × m₂` entries. -/
def addPlanes (n m₁ m₂ sp : Nat) (grid : Nat → Nat → Nat → K) (i j : Nat) : List (Int × K) → K → Except SliceErr K
  | [], acc => .ok acc
  | (ci, wt) :: r, acc =>
    if (n : Int) ≤ ci then .error .indexError
    else if !(fits m₁ (sampled m₁ sp) && fits m₂ (sampled m₂ sp)) then .error .broadcast
    else addPlanes n m₁ m₂ sp grid i j r
      (acc + wt * grid ci.toNat (broadcastIdx (sampled m₁ sp) i * sp) (broadcastIdx (sampled m₂ sp) j * sp))

/-- `get_slice`: the entry `(i, j)` of the result, which has the shape `(m₁, m₂)` before `squeeze`. `e` are the edges of the axis without
shift; the position must lie between the first and the last centre (1017-1020). `np.insert([0, 0], surface_normal, (center,))` (1005)
converts the position to the type of `[0, 0]`, an integer. 970-1032 -/
def getSlice (periodic : Bool) (shift : K) (e : List K) (m₁ m₂ sp : Nat) (grid : Nat → Nat → Nat → K) (center : K) (i j : Nat) :
    Except SliceErr K :=
  if sp = 0 then .error .gridError
  else if center < centre e 0 ∨ centre e (e.length - 2) < center then .error .gridError
  else addPlanes (e.length - 1) m₁ m₂ sp grid i j (planes (primEdges periodic shift e) (primWidths periodic shift e) (trunc center : K)) 0

end Verif.Render.Slice
