import Verif.Obj.PlanExpr
/-
What an expression of a plan means: ordinary arithmetic with complex numbers, written without reference to how the plan
represents it.
-/
namespace Verif.Obj.Plan

/-- How far the real number `x` is from the interval of the given width around `v`. -/
noncomputable def excess (v width x : ℝ) : ℝ := max (|x - v| - width / 2) 0

open Classical in
/-- The arithmetic value of an expression when the function `i` has the value `env i`. It is undefined (`none`) when it
divides by zero, raises zero to a negative or complex power, or asks for the comparison of a number that is not real, with
an interval of negative width or an exponent that is not positive. -/
noncomputable def PEx.value (env : Nat → ℂ) : PEx → Option ℂ
  | .leaf i => some (env i)
  | .real x => some x
  | .cplx z => some z
  | .cobj z => some z
  | .constant z => some z
  | .add a b => (a.value env).bind fun x => (b.value env).map fun y => x + y
  | .sub a b => (a.value env).bind fun x => (b.value env).map fun y => x - y
  | .mul a b => (a.value env).bind fun x => (b.value env).map fun y => x * y
  | .div a b => (a.value env).bind fun x => (b.value env).bind fun y => if y = 0 then none else some (x / y)
  | .pow a b => (a.value env).bind fun x => (b.value env).bind fun y =>
      if x = 0 ∧ (y.re < 0 ∨ y.im ≠ 0) then none else some (x ^ y)
  | .neg a => (a.value env).map fun x => -x
  | .abs a => (a.value env).map fun x => (‖x‖ : ℂ)
  | .comp a v width e => (a.value env).bind fun x =>
      if x.im = 0 ∧ 0 ≤ width ∧ 0 < e then some ((excess v width x.re ^ e : ℝ) : ℂ) else none

/-- Does a function occur in the expression? -/
def PEx.hasFn : PEx → Bool
  | .leaf _ => true
  | .constant _ => true
  | .real _ => false
  | .cplx _ => false
  | .cobj _ => false
  | .add a b => a.hasFn || b.hasFn
  | .sub a b => a.hasFn || b.hasFn
  | .mul a b => a.hasFn || b.hasFn
  | .div a b => a.hasFn || b.hasFn
  | .pow a b => a.hasFn || b.hasFn
  | .neg a => a.hasFn
  | .abs _ => true
  | .comp _ _ _ _ => true

/-- The expressions that are offered: sums, differences and products of anything; quotients whose dividend contains a
function, and whose divisor either contains one or is a nonzero literal; real literal powers of functions; negatives;
absolute values and comparisons of functions. `ComplexNumber` objects only as summands or factors of functions. -/
def PEx.Offered : PEx → Prop
  | .leaf _ => True
  | .constant _ => True
  | .real _ => True
  | .cplx _ => True
  | .cobj _ => False
  | .add a b => a.Offered ∧ (b.Offered ∨ (a.hasFn = true ∧ ∃ z, b = .cobj z))
  | .sub a b => a.Offered ∧ b.Offered
  | .mul a b => a.Offered ∧ (b.Offered ∨ (a.hasFn = true ∧ ∃ z, b = .cobj z))
  | .div a b => a.Offered ∧ a.hasFn = true ∧
      ((b.Offered ∧ b.hasFn = true) ∨ (∃ y : ℝ, y ≠ 0 ∧ b = .real y) ∨ ∃ z : ℂ, z ≠ 0 ∧ b = .cplx z)
  | .pow a b => a.Offered ∧ a.hasFn = true ∧ ((∃ p, b = .real p) ∨ ∃ p : ℝ, b = .constant p)
  | .neg a => a.Offered
  | .abs a => a.Offered ∧ a.hasFn = true
  | .comp a _ _ _ => a.Offered ∧ a.hasFn = true

end Verif.Obj.Plan
