import Verif.Cubic.Param
import Mathlib.Algebra.Order.Archimedean.Real.Basic
import Mathlib.Algebra.Ring.Parity

/-!
# Creating cubic parametrizations

Model of `create_spins_param`, `create_cubic_param` and `OldStyleParametrization` of
`spins/goos/compat.py` (58-84, 144-240) and of the cubic case of
`create_cubic_or_hermite_levelset` of `spins/invdes/problem_graph/creator_param.py` (73-141).
Numbers are exact reals; `np.arange` and `np.linspace` have no rounding errors.
-/

namespace Verif.Cubic

/-- `np.arange(start, stop, step)` for a positive step. -/
noncomputable def npArange (start stop step : ℝ) : List ℝ :=
  (List.range ⌈(stop - start) / step⌉₊).map fun (i : Nat) => start + i * step

/-- `np.linspace(start, stop, num)`. -/
noncomputable def linspace (start stop : ℝ) (num : Nat) : List ℝ :=
  if num = 1 then [start]
  else (List.range num).map fun (i : Nat) => start + i * ((stop - start) / (num - 1))

open Classical in
/-- `np.round`: to the nearest integer, halves to the even one. -/
noncomputable def npRound (x : ℝ) : Int :=
  if x - ⌊x⌋ < 1 / 2 then ⌊x⌋
  else if 1 / 2 < x - ⌊x⌋ then ⌊x⌋ + 1
  else if Even ⌊x⌋ then ⌊x⌋ else ⌊x⌋ + 1

/-- `g -= (g[-1] + g[0]) / 2`. -/
noncomputable def centre (g : List ℝ) : List ℝ :=
  g.map fun x => x - (pyGet 0 g (-1) + pyGet 0 g 0) / 2

/-- compat.py 168-172 and creator_param.py 92-96, the fine grid of an axis with `n` pixels. -/
noncomputable def fineGrid (n : Nat) : List ℝ := centre (npArange (-n / 2) (n / 2) 1)

/-- compat.py 181-184 and creator_param.py 103-106, the coarse grid of an axis without periods. -/
noncomputable def coarseOpen (n : Nat) (u : ℝ) : List ℝ :=
  centre (npArange (-n / 2 - u) (n / 2 + u) u)

/-- compat.py 175-184, the coarse grid of an axis with `n` pixels, `u` pixels between coarse points
and `p` periods. -/
noncomputable def coarseCompat (n : Nat) (u : ℝ) (p : Nat) : List ℝ :=
  if p ≠ 0 then
    let f := fineGrid n
    let num := npRound ((pyGet 0 f (-1) + 1 - pyGet 0 f 0) / (p * u)) * p + 1
    centre (linspace (pyGet 0 f 0) (pyGet 0 f (-1) + 1) num.toNat)
  else coarseOpen n u

/-- creator_param.py 99-106, the coarse grid of an axis. -/
noncomputable def coarseInvdes (n : Nat) (u : ℝ) (p : Nat) : List ℝ :=
  if p ≠ 0 then
    let f := fineGrid n
    let num := npRound ((pyGet 0 f (-1) - pyGet 0 f 0) / u) + 1
    centre (linspace (pyGet 0 f 0) (pyGet 0 f (-1) + 1) num.toNat)
  else coarseOpen n u

/-- compat.py 197-204, `var_shape` of one axis. -/
def varShape (coarse : Nat) (sym : Bool) (p : Nat) : Nat :=
  let v := (coarse - (if p ≠ 0 then 1 else 0)) / max p 1
  if sym then (v + (if p ≠ 0 then 1 else 0) + 1) / 2 else v

/-- compat.py 208-211: one entry of the random initial values is replaced for every symmetric axis;
the entry may not exist. -/
noncomputable def spoil (r : List ℝ) (i : Nat) (sym : Bool) (p : Nat) : Except Err (List ℝ) :=
  if sym then
    match r[i]? with
    | none => .error .shape
    | some x => .ok (r.set i ⌈(x + (if p ≠ 0 then 1 else 0)) / 2⌉)
  else .ok r

/-- compat.py 206, `0.4 + 0.2 * rand.random(tuple(var_shape)).flatten(order="F")`; `rand` are the
random numbers. -/
noncomputable def randomInit (vx vy : Nat) (rand : Nat → ℝ) : List ℝ :=
  (List.range (vx * vy)).map fun (i : Nat) => 4 / 10 + 2 / 10 * rand i

/-- compat.py 144-240, `create_cubic_param`, for `nx` by `ny` pixels; the checks of the pixel size
(148-151) and the missing options that become zeros (156-164) are not modelled. -/
noncomputable def createCubicParam (nx ny : Nat) (u : ℝ) (sym : Bool × Bool) (p : Nat × Nat)
    (rand : Nat → ℝ) : Except Err CubicParam := do
  let vx := varShape (coarseCompat nx u p.1).length sym.1 p.1
  let vy := varShape (coarseCompat ny u p.2).length sym.2 p.2
  let r ← spoil (randomInit vx vy rand) 0 sym.1 p.1
  let r ← spoil r 1 sym.2 p.2
  let P ← mkCubicParam (.array r) (coarseCompat nx u p.1) (coarseCompat ny u p.2) (fineGrid nx)
    (fineGrid ny) sym (p.1 != 0, p.2 != 0) p 0 1 none
  return P.setK 0

/-- compat.py 58-63, the pixels of `OldStyleParametrization.eval`, in Fortran order. -/
noncomputable def evalPixels (P : CubicParam) (v : List ℝ) : Except Err (List ℝ) :=
  (P.fromVector v).getStructure

/-- compat.py 76-80, the gradient of `OldStyleParametrization.grad` for the variable; `g` is the
gradient of the pixels in Fortran order. -/
noncomputable def gradPixels (P : CubicParam) (v : List ℝ) (g : List ℝ) : Except Err (List ℝ) :=
  match (P.fromVector v).calculateGradient with
  | .error e => .error e
  | .ok A => matVec A.transpose g

/-- creator_param.py 73-141, the cubic case: `init` is the filtered grid of initial values. -/
noncomputable def createInvdes (nx ny : Nat) (u : ℝ) (sym : Bool × Bool) (p : Nat × Nat) (init : List ℝ) :
    Except Err CubicParam :=
  mkCubicParam (.array init) (coarseInvdes nx u p.1) (coarseInvdes ny u p.2) (fineGrid nx)
    (fineGrid ny) sym (p.1 != 0, p.2 != 0) p 0 1 none

end Verif.Cubic
