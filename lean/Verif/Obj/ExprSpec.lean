import Verif.Obj.Expr
/-
Specification for C37: the arithmetic value of an expression.
-/
namespace Verif.Obj

/-- The arithmetic value of an expression when function `i` has the value `env i`: every operator is numpy's operator on
the values of the operands (elementwise, with broadcasting; `none` if the shapes do not match). -/
noncomputable def Ex.value (env : Nat → Val) : Ex → Option Val
  | .leaf i => some (env i)
  | .num x => some [x]
  | .arr l => some l
  | .add a b => (a.value env).bind fun u => (b.value env).bind fun v => bc (· + ·) u v
  | .sub a b => (a.value env).bind fun u => (b.value env).bind fun v => bc (· - ·) u v
  | .mul a b => (a.value env).bind fun u => (b.value env).bind fun v => bc (· * ·) u v
  | .div a b => (a.value env).bind fun u => (b.value env).bind fun v => bc (· / ·) u v
  | .neg a => (a.value env).map fun u => u.map (- ·)
  | .pow a p => (a.value env).map fun u => u.map (· ^ p)

/-- The expression mentions a function. -/
def Ex.hasFn : Ex → Bool
  | .leaf _ => true
  | .num _ => false
  | .arr _ => false
  | .add a b | .sub a b | .mul a b | .div a b => a.hasFn || b.hasFn
  | .neg a | .pow a _ => a.hasFn

/-- The expression mentions an array literal. -/
def Ex.hasArr : Ex → Bool
  | .leaf _ => false
  | .num _ => false
  | .arr _ => true
  | .add a b | .sub a b | .mul a b | .div a b => a.hasArr || b.hasArr
  | .neg a | .pow a _ => a.hasArr

/-- No function is multiplied by an array from the right. -/
def Ex.noArrayFactor : Ex → Prop
  | .leaf _ | .num _ | .arr _ => True
  | .add a b | .sub a b | .div a b => a.noArrayFactor ∧ b.noArrayFactor
  | .mul a b => a.noArrayFactor ∧ b.noArrayFactor ∧ ¬ (a.hasFn = true ∧ b.hasFn = false ∧ b.hasArr = true)
  | .neg a | .pow a _ => a.noArrayFactor

/-- All functions and arrays have `n` entries; numbers, negation and subtraction (which bring in the number -1) only
occur if `n` is 1. -/
def Ex.uniform (n : Nat) (env : Nat → Val) : Ex → Prop
  | .leaf i => (env i).length = n
  | .num _ => n = 1
  | .arr l => l.length = n
  | .add a b | .mul a b | .div a b => a.uniform n env ∧ b.uniform n env
  | .sub a b => n = 1 ∧ a.uniform n env ∧ b.uniform n env
  | .neg a => n = 1 ∧ a.uniform n env
  | .pow a _ => a.uniform n env

end Verif.Obj
