import Mathlib.Algebra.Order.Floor.Ring
import Mathlib.Algebra.Order.Field.Basic

/-!
# Non-uniform meshes

The mesh generator of `spins/fdfd_tools/grid.py`: `make_nonuniform_grid`
(lines 179-268) and the spacings `generate_periodic_dx` (lines 157-176).
Coordinates are elements of an ordered field with a floor, so that
there is no rounding.
-/

namespace Verif.Fdfd.Nonuni

variable {K : Type*} [Field K] [LinearOrder K] [IsStrictOrderedRing K] [FloorRing K]

/-- One box of finer mesh, seen along one axis: the entries of `pos`, `size` and
`meshsize` for that axis (grid.py 194-196). -/
structure Box1 (K : Type*) where
  pos : K
  size : K
  mesh : K

/-- `pos - size / 2`: the lower end of a box (grid.py 234, 236, 238). -/
def Box1.lower (b : Box1 K) : K := b.pos - b.size / 2

/-- `pos + size / 2`: the upper end of a box (grid.py 235, 237, 239). -/
def Box1.upper (b : Box1 K) : K := b.pos + b.size / 2

/-- `MeshBox` at one sample (grid.py 225-229): the mesh size of the box, and
outside the box an increment added *to it*. -/
def meshBox (grad : K) (b : Box1 K) (x : K) : K :=
  b.mesh + (if x < b.lower then grad * (b.lower - x) + b.mesh else 0)
    + (if b.upper < x then grad * (x - b.upper) + b.mesh else 0)

/-- One entry of `np.amin(dx, axis=0)` (grid.py 219, 233-250): the smallest of
the default and of what each box asks for. -/
def meshAt (grad default : K) (boxes : List (Box1 K)) (x : K) : K :=
  boxes.foldl (fun m b => min m (meshBox grad b x)) default

/-- `NX` (grid.py 213-215).  Simplification: a negative count, which makes
`np.linspace` fail, becomes zero. -/
def count (lo hi step : K) : Nat :=
  ⌊(((⌈hi⌉ : Int) : K) - ((⌊lo⌋ : Int) : K)) / step⌋.toNat

/-- Entry `i` of `np.linspace(floor lo, ceil hi, NX + 1)` (grid.py 216-218). -/
def sample (lo hi : K) (n i : Nat) : K :=
  ((⌊lo⌋ : Int) : K) + (i : K) * ((((⌈hi⌉ : Int) : K) - ((⌊lo⌋ : Int) : K)) / (n : K))

/-- The vector `dxv` (grid.py 213-250): the mesh size at every sample. -/
def fineMesh (grad default lo hi step : K) (boxes : List (Box1 K)) : List K :=
  (List.range (count lo hi step + 1)).map fun i =>
    meshAt grad default boxes (sample lo hi (count lo hi step) i)

/-- The index `int((xs[-1] - x[0]) // step)` (grid.py 256).  Simplification:
a negative index, which Python would count from the end, becomes zero; it
does not occur, because the walk starts at `lo` and goes up. -/
def idx (lo step p : K) : Nat := ⌊(p - ((⌊lo⌋ : Int) : K)) / step⌋.toNat

/-- The loop `while xs[-1] < hi` (grid.py 254-256, 258-260, 262-264), from the
current last point.  `none` stands for an index error or for a loop that
needs more rounds than the fuel allows. -/
def walk (mesh : List K) (lo hi step : K) : Nat → K → Option (List K)
  | 0, _ => none
  | fuel + 1, p =>
    if p < hi then
      (mesh[idx lo step p]?).bind fun d => (walk mesh lo hi step fuel (p + d)).map (p :: ·)
    else some [p]

/-- `xs / np.max(xs) * hi` (grid.py 257, 261, 265).  `none` stands for the
division by zero, whose result is not a number. -/
def rescale (hi : K) : List K → Option (List K)
  | [] => none
  | p :: ps =>
    let m := ps.foldl max p
    if m = 0 then none else some ((p :: ps).map fun q => q / m * hi)

/-- One axis of `make_nonuniform_grid`: grid.py 213, 216, 219, 240-241, 248,
254-257 for `x`, and likewise for the other two. -/
def makeAxis (grad default lo hi step : K) (boxes : List (Box1 K)) (fuel : Nat) :
    Option (List K) :=
  (walk (fineMesh grad default lo hi step boxes) lo hi step fuel lo).bind (rescale hi)

/-- A box of finer mesh in three dimensions (grid.py 194-196). -/
structure Box3 (K : Type*) where
  pos : Fin 3 → K
  size : Fin 3 → K
  mesh : Fin 3 → K

/-- What a box says about one axis (grid.py 234-245). -/
def Box3.axis (b : Box3 K) (a : Fin 3) : Box1 K := ⟨b.pos a, b.size a, b.mesh a⟩

/-- `make_nonuniform_grid` (grid.py 179-268).  Lines 219-221 take the default of
*all* axes from entry 0 of `dx_default`. -/
def makeGrid (borders : Fin 3 → K × K) (dflt : Fin 3 → K) (boxes : List (Box3 K))
    (grad step : K) (fuel : Nat) : Fin 3 → Option (List K) := fun a =>
  makeAxis grad (dflt 0) (borders a).1 (borders a).2 step (boxes.map (Box3.axis · a)) fuel

/-- `np.diff`. -/
def diffs : List K → List K
  | p :: q :: rest => (q - p) :: diffs (q :: rest)
  | _ => []

/-- `generate_periodic_dx` for one axis (grid.py 170-175); `none` for the axes of
a single cell, which stay at infinity (167-168, 172). -/
def periodicDx : List K → Option (List K × List K)
  | p0 :: p1 :: rest =>
    let p := p0 :: p1 :: rest
    let shifted := (p1 :: rest) ++ [(p1 :: rest).getLast (by simp) + (p1 - p0)]
    some (diffs p, diffs (List.zipWith (fun a b => (a + b) / 2) p shifted))
  | _ => none

end Verif.Fdfd.Nonuni
