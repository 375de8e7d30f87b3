import Mathlib.Data.Sign.Defs
import Mathlib.Data.Real.Basic
import Mathlib.Tactic.Linarith
import Mathlib.Tactic.Ring
import Mathlib.Tactic.FieldSimp
import Mathlib.Tactic.Positivity
import Mathlib.Algebra.Order.Archimedean.Real.Basic
import Mathlib.Data.List.GetD
/-
Model of `scipy.interpolate.pchip_interpolate` for real data, which `spins/material/material.py` calls (20-21,
40-41): monotone cubic interpolation after Fritsch and Butland. This is library code; the model follows
`PchipInterpolator._find_derivatives`, `CubicHermiteSpline` and the evaluation of piecewise polynomials. Numbers
are exact reals.
-/
namespace Verif.Mat

/-- `hk = x[1:] - x[:-1]`. -/
def hk (x : Nat → ℝ) (i : Nat) : ℝ := x (i + 1) - x i

/-- `mk = (y[1:] - y[:-1]) / hk`. -/
noncomputable def mk (x y : Nat → ℝ) (i : Nat) : ℝ := (y (i + 1) - y i) / hk x i

open Classical in
/-- `PchipInterpolator._edge_case`: the slope at an end. -/
noncomputable def edgeCase (h0 h1 m0 m1 : ℝ) : ℝ :=
  let d := ((2 * h0 + h1) * m0 - h0 * m1) / (h0 + h1)
  if SignType.sign d ≠ SignType.sign m0 then 0
  else if SignType.sign m0 ≠ SignType.sign m1 ∧ 3 * |m0| < |d| then 3 * m0
  else d

open Classical in
/-- The slope at an inner sample: zero at an extremum, else the weighted harmonic mean. -/
noncomputable def innerSlope (h0 h1 m0 m1 : ℝ) : ℝ :=
  if SignType.sign m1 ≠ SignType.sign m0 ∨ m1 = 0 ∨ m0 = 0 then 0
  else 1 / (((2 * h1 + h0) / m0 + (h1 + 2 * h0) / m1) / ((2 * h1 + h0) + (h1 + 2 * h0)))

/-- `PchipInterpolator._find_derivatives` for `n` samples. -/
noncomputable def slope (n : Nat) (x y : Nat → ℝ) (i : Nat) : ℝ :=
  if n = 2 then mk x y 0
  else if i = 0 then edgeCase (hk x 0) (hk x 1) (mk x y 0) (mk x y 1)
  else if i = n - 1 then edgeCase (hk x (n - 2)) (hk x (n - 3)) (mk x y (n - 2)) (mk x y (n - 3))
  else innerSlope (hk x (i - 1)) (hk x i) (mk x y (i - 1)) (mk x y i)

open Classical in
/-- The piece a point belongs to: the last one that starts at or before it, the first one for points before the
first sample, the last one for points after the last sample. -/
noncomputable def piece (n : Nat) (x : Nat → ℝ) (q : ℝ) : Nat :=
  ((List.range (n - 1)).filter (fun i => decide (x i ≤ q))).length - 1

/-- The polynomial of one piece (`CubicHermiteSpline.__init__`), with slopes `d0` and `d1`. -/
noncomputable def hermite (h m d0 d1 y0 s : ℝ) : ℝ :=
  let t := (d0 + d1 - 2 * m) / h
  t / h * s ^ 3 + ((m - d0) / h - t) * s ^ 2 + d0 * s + y0

/-- The interpolant at `q`. -/
noncomputable def pchipAt (n : Nat) (x y : Nat → ℝ) (q : ℝ) : ℝ :=
  let i := piece n x q
  hermite (hk x i) (mk x y i) (slope n x y i) (slope n x y (i + 1)) (y i) (q - x i)

open Classical in
/-- `pchip_interpolate(xs, ys, q)`; `none` is the exception for data that are not strictly increasing, for fewer
than two samples and for lists of different lengths. -/
noncomputable def pchip (xs ys : List ℝ) (q : ℝ) : Option ℝ :=
  if xs.length = ys.length ∧ 2 ≤ xs.length ∧ (∀ i, i + 1 < xs.length → xs.getD i 0 < xs.getD (i + 1) 0) then
    some (pchipAt xs.length (fun i => xs.getD i 0) (fun i => ys.getD i 0) q)
  else none

end Verif.Mat
