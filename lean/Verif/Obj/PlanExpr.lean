import Mathlib.Analysis.SpecialFunctions.Pow.Complex
import Mathlib.Analysis.SpecialFunctions.Pow.Real
/-
Model of the expressions of plans: the operators of `Function` (`spins/invdes/problem_graph/optplan/optplan.py`), `Sum`,
`Product`, `Abs`, `PowerComp`, `make_constant` (`optplan/schema_function.py`), the creation of the nodes of the problem
(`spins/invdes/problem_graph/creator_function.py`) and their evaluation (`spins/invdes/problem/objective.py`).

Simplifications: functions have scalar values, and these are complex numbers (a real number is one with imaginary part
zero; the NaN numpy gives for a negative real number to a fractional power is the principal power here); raising, and the
infinities and NaNs of a division by zero, are `none`; exponents of `PowerComp` are positive.
-/
namespace Verif.Obj.Plan

/-- Nodes of a plan: any other function, `Constant`, `Sum`, `Product`, `Power`, `PowerComp`, `Abs`.
schema_function.py 11-141 -/
inductive PFn where
  | leaf (i : Nat)
  | const (c : ℂ)
  | sum (l : List PFn)
  | prod (l : List PFn)
  | pow (f : PFn) (p : ℝ)
  | comp (f : PFn) (value range exp : ℝ)
  | abs (f : PFn)

/-- Python objects that occur as operands: nodes, real and complex numbers, and `optplan.ComplexNumber`. -/
inductive POp where
  | fn (f : PFn)
  | real (x : ℝ)
  | cplx (z : ℂ)
  | cobj (z : ℂ)

/-- `make_constant`, and nodes as they are. schema_function.py 125-141 -/
def POp.toFn : POp → PFn
  | .fn f => f
  | .real x => .const x
  | .cplx z => .const z
  | .cobj z => .const z

/-- `Function.__add__` and `Sum.__add__`. optplan.py 170-179; schema_function.py 22-31 -/
def pAdd (f : PFn) (o : POp) : PFn :=
  match f, o with
  | .sum l, .fn (.sum m) => .sum (l ++ m)
  | .sum l, .fn g => .sum (l ++ [g])
  | .sum l, o => .sum (l ++ [o.toFn])
  | f, .fn (.sum m) => .sum (m ++ [f])
  | f, .fn g => .sum [f, g]
  | f, o => .sum [f, o.toFn]

/-- `Function.__mul__` and `Product.__mul__`. optplan.py 181-191; schema_function.py 45-54 -/
def pMul (f : PFn) (o : POp) : PFn :=
  match f, o with
  | .prod l, .fn (.prod m) => .prod (l ++ m)
  | .prod l, .fn g => .prod (l ++ [g])
  | .prod l, o => .prod (l ++ [o.toFn])
  | f, .fn (.prod m) => .prod (m ++ [f])
  | f, .fn g => .prod [f, g]
  | f, o => .prod [f, o.toFn]

/-- `Function.__neg__`: `-1 * self`, which is `self.__rmul__(-1)`. optplan.py 210-211, 216-217 -/
def pNeg (f : PFn) : PFn := pMul f (.real (-1))

/-- `-obj` for an operand; `ComplexNumber` has no negative. -/
def oNeg (o : POp) : Option POp :=
  match o with
  | .fn f => some (.fn (pNeg f))
  | .real x => some (.real (-x))
  | .cplx z => some (.cplx (-z))
  | .cobj _ => none

/-- `Function.__sub__`. optplan.py 204-205 -/
def pSub (f : PFn) (o : POp) : Option PFn := (oNeg o).map (pAdd f)

/-- `Function.__rsub__`. optplan.py 219-220 -/
def pRsub (f : PFn) (o : POp) : PFn := pAdd (pNeg f) o

/-- `Function.__pow__`. optplan.py 193-202 -/
noncomputable def pPow (f : PFn) (o : POp) : Option PFn :=
  match o with
  | .real p => some (.pow f p)
  | .fn (.const c) => if c.im ≠ 0 then none else some (.pow f c.re)
  | _ => none

/-- `obj**-1` for an operand. -/
noncomputable def oInv (o : POp) : Option POp :=
  match o with
  | .fn f => (pPow f (.real (-1))).map .fn
  | .real x => if x = 0 then none else some (.real x⁻¹)
  | .cplx z => if z = 0 then none else some (.cplx z⁻¹)
  | .cobj _ => none

/-- `Function.__truediv__`. optplan.py 207-208 -/
noncomputable def pDiv (f : PFn) (o : POp) : Option PFn := (oInv o).map (pMul f)

/-! ### Python's operations on numbers -/

/-- The number a literal operand is, for the native operations. -/
def POp.num : POp → Option ℂ
  | .real x => some x
  | .cplx z => some z
  | _ => none

/-- `a + b`, `a - b`, `a * b` of numbers: real if both are. -/
def native (r : ℝ → ℝ → ℝ) (c : ℂ → ℂ → ℂ) (a b : POp) : Option POp :=
  match a, b with
  | .real x, .real y => some (.real (r x y))
  | a, b => a.num.bind fun x => b.num.map fun y => .cplx (c x y)

/-- `a / b` of numbers. -/
noncomputable def nativeDiv (a b : POp) : Option POp :=
  if b.num = some 0 then none else native (· / ·) (· / ·) a b

open Classical in
/-- `x ** p` of real numbers: complex for a negative `x` and a `p` that is no integer. -/
noncomputable def realPow (x p : ℝ) : Option POp :=
  if x = 0 ∧ p < 0 then none
  else if x < 0 ∧ ¬ ∃ n : ℤ, p = n then some (.cplx ((x : ℂ) ^ (p : ℂ)))
  else some (.real (x ^ p))

/-- `z ** w` of complex numbers. -/
noncomputable def cplxPow (z w : ℂ) : Option ℂ := if z = 0 ∧ (w.re < 0 ∨ w.im ≠ 0) then none else some (z ^ w)

/-- `a ** b` of numbers. -/
noncomputable def nativePow (a b : POp) : Option POp :=
  match a, b with
  | .real x, .real p => realPow x p
  | a, b => a.num.bind fun x => b.num.bind fun y => (cplxPow x y).map .cplx

/-! ### Expressions as the user writes them -/

/-- An expression over nodes (`leaf i`), literals and the helpers of the module. -/
inductive PEx where
  | leaf (i : Nat)
  | real (x : ℝ)
  | cplx (z : ℂ)
  | cobj (z : ℂ)
  | constant (z : ℂ)
  | add (a b : PEx)
  | sub (a b : PEx)
  | mul (a b : PEx)
  | div (a b : PEx)
  | pow (a b : PEx)
  | neg (a : PEx)
  | abs (a : PEx)
  | comp (a : PEx) (value range exp : ℝ)

/-- Python's dispatch of a binary operator: the method of a node on the left, else the reflected method of a node on the
right, else the native operation. -/
def dispatch (m : PFn → POp → Option PFn) (r : PFn → POp → Option PFn) (nat : POp → POp → Option POp) (a b : POp) :
    Option POp :=
  match a, b with
  | .fn f, b => (m f b).map .fn
  | a, .fn g => (r g a).map .fn
  | a, b => nat a b

/-- A helper that takes a node; anything else is no valid reference. -/
def onFn (k : PFn → PFn) (a : POp) : Option POp :=
  match a with
  | .fn f => some (.fn (k f))
  | _ => none

/-- The object Python builds for an expression. There is no `__rtruediv__` (but the `__rdiv__` of Python 2, optplan.py
222-223) and no `__rpow__`. -/
noncomputable def build : PEx → Option POp
  | .leaf i => some (.fn (.leaf i))
  | .real x => some (.real x)
  | .cplx z => some (.cplx z)
  | .cobj z => some (.cobj z)
  | .constant z => some (.fn (.const z))
  | .add a b => (build a).bind fun x => (build b).bind fun y =>
      dispatch (fun f o => some (pAdd f o)) (fun f o => some (pAdd f o)) (native (· + ·) (· + ·)) x y
  | .sub a b => (build a).bind fun x => (build b).bind fun y =>
      dispatch pSub (fun f o => some (pRsub f o)) (native (· - ·) (· - ·)) x y
  | .mul a b => (build a).bind fun x => (build b).bind fun y =>
      dispatch (fun f o => some (pMul f o)) (fun f o => some (pMul f o)) (native (· * ·) (· * ·)) x y
  | .div a b => (build a).bind fun x => (build b).bind fun y => dispatch pDiv (fun _ _ => none) nativeDiv x y
  | .pow a b => (build a).bind fun x => (build b).bind fun y => dispatch pPow (fun _ _ => none) nativePow x y
  | .neg a => (build a).bind oNeg
  | .abs a => (build a).bind (onFn .abs)
  | .comp a v r e => (build a).bind (onFn fun f => .comp f v r e)

/-! ### Creation and evaluation -/

/-- Nodes of the problem. objective.py 364, 505, 560, 617, 653, 753 -/
inductive QFn where
  | leaf (i : Nat)
  | const (c : ℂ)
  | sum (l : List QFn)
  | prod (l : List QFn)
  | pow (f : QFn) (p : ℝ)
  | comparison (f : QFn) (beta alpha p : ℝ)
  | abs (f : QFn)

mutual
/-- The creators of the nodes. creator_function.py 16-55 -/
noncomputable def create : PFn → QFn
  | .leaf i => .leaf i
  | .const c => .const (c.re + Complex.I * c.im)
  | .sum l => .sum (creates l)
  | .prod l => .prod (creates l)
  | .pow f p => .pow (create f) p
  | .comp f v r e => .comparison (create f) (v + -0.5 * r) (v + 0.5 * r) e
  | .abs f => .abs (create f)
noncomputable def creates : List PFn → List QFn
  | [] => []
  | f :: l => create f :: creates l
end

/-- `x < b` for a complex `x` and a real `b` as numpy compares them. -/
def npLt (x y : ℂ) : Prop := x.re < y.re ∨ (x.re = y.re ∧ x.im < y.im)

open Classical in
/-- `PowerComparison.eval`. objective.py 776-781 -/
noncomputable def cmpVal (beta alpha p : ℝ) (x : ℂ) : ℝ :=
  let betaTerm := (if npLt x beta then 1 else 0) * ‖(beta : ℂ) - x‖ ^ p
  let alphaTerm := (if npLt alpha x then 1 else 0) * ‖x - (alpha : ℂ)‖ ^ p
  alphaTerm + betaTerm

mutual
/-- Value of a node, given the values of the leaves. objective.py 391-393, 531-532, 580-584, 632-633,
664-665, 776-781 -/
noncomputable def evalQ (env : Nat → ℂ) : QFn → Option ℂ
  | .leaf i => some (env i)
  | .const c => some c
  | .sum l => (evalQs env l).map fun vs => vs.foldl (· + ·) 0
  | .prod l => (evalQs env l).map fun vs => vs.foldl (· * ·) 1
  | .pow f p => (evalQ env f).bind fun v => cplxPow v p
  | .comparison f b a p => (evalQ env f).map fun v => (cmpVal b a p v : ℂ)
  | .abs f => (evalQ env f).map fun v => (‖v‖ : ℂ)
noncomputable def evalQs (env : Nat → ℂ) : List QFn → Option (List ℂ)
  | [] => some []
  | f :: l => (evalQ env f).bind fun v => (evalQs env l).map (v :: ·)
end

end Verif.Obj.Plan
