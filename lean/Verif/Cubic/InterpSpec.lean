import Mathlib.Algebra.Order.Field.Basic
import Mathlib.Data.List.GetD
import Mathlib.Tactic.Ring

/-!
# Specification of the interpolation

One-dimensional cubic Hermite interpolation with three-point slopes, in textbook form.
-/

namespace Verif.Cubic

variable {K : Type*} [Field K]

/-- The derivative at `x` of the quadratic polynomial through three points (Lagrange form). -/
def threePoint (x0 x1 x2 f0 f1 f2 x : K) : K :=
  f0 * ((x - x1) + (x - x2)) / ((x0 - x1) * (x0 - x2)) +
  f1 * ((x - x0) + (x - x2)) / ((x1 - x0) * (x1 - x2)) +
  f2 * ((x - x0) + (x - x1)) / ((x2 - x0) * (x2 - x1))

/-- The slope at point `i` of the values `f` on the points `xs`: the derivative of the quadratic
through the point and its neighbours; at the ends of a non-periodic axis through the three last
points.  On a periodic axis the last point is the first one of the next period. -/
def slope (per : Bool) (xs : List K) (f : Nat → K) (i : Nat) : K :=
  let n := xs.length
  let x := fun i => xs.getD i 0
  if per then
    threePoint (if i = 0 then x 0 - (x (n - 1) - x (n - 2)) else x (i - 1)) (x i) (x (i + 1))
      (if i = 0 then f (n - 2) else f (i - 1)) (f i) (if i + 1 = n - 1 then f 0 else f (i + 1)) (x i)
  else if i + 1 = n then threePoint (x (i - 2)) (x (i - 1)) (x i) (f (i - 2)) (f (i - 1)) (f i) (x i)
  else if i = 0 then threePoint (x 0) (x 1) (x 2) (f 0) (f 1) (f 2) (x 0)
  else threePoint (x (i - 1)) (x i) (x (i + 1)) (f (i - 1)) (f i) (f (i + 1)) (x i)

/-- The cubic on an interval of length `h` with the given values and slopes at its ends, at distance
`t` from its left end. -/
def hermite (h t f0 f1 d0 d1 : K) : K :=
  f0 * (1 - 3 * (t / h) ^ 2 + 2 * (t / h) ^ 3) + f1 * (3 * (t / h) ^ 2 - 2 * (t / h) ^ 3) +
  d0 * (h * (t / h - 2 * (t / h) ^ 2 + (t / h) ^ 3)) + d1 * (h * (-(t / h) ^ 2 + (t / h) ^ 3))

/-- Its derivative. -/
def hermiteD (h t f0 f1 d0 d1 : K) : K :=
  f0 * ((-6 * (t / h) + 6 * (t / h) ^ 2) / h) + f1 * ((6 * (t / h) - 6 * (t / h) ^ 2) / h) +
  d0 * (1 - 4 * (t / h) + 3 * (t / h) ^ 2) + d1 * (-2 * (t / h) + 3 * (t / h) ^ 2)

/-- On a periodic axis the last of `n` points stands for the first one. -/
def wrap (per : Bool) (n i : Nat) : Nat := if per ∧ i + 1 = n then 0 else i

/-- The interpolating function on cell `k`. -/
def onCell (per : Bool) (xs : List K) (f : Nat → K) (k : Nat) (x : K) : K :=
  hermite (xs.getD (k + 1) 0 - xs.getD k 0) (x - xs.getD k 0)
    (f (wrap per xs.length k)) (f (wrap per xs.length (k + 1)))
    (slope per xs f (wrap per xs.length k)) (slope per xs f (wrap per xs.length (k + 1)))

/-- Its derivative. -/
def onCellD (per : Bool) (xs : List K) (f : Nat → K) (k : Nat) (x : K) : K :=
  hermiteD (xs.getD (k + 1) 0 - xs.getD k 0) (x - xs.getD k 0)
    (f (wrap per xs.length k)) (f (wrap per xs.length (k + 1)))
    (slope per xs f (wrap per xs.length k)) (slope per xs f (wrap per xs.length (k + 1)))

end Verif.Cubic
