import Mathlib.Analysis.SpecialFunctions.Pow.Real
/-
Model of the operator overloading of goos functions (`spins/goos/math.py`) and invdes optimization functions
(`spins/invdes/problem/objective.py`), and of the evaluation of the nodes the operators build.

Simplifications: arrays are one-dimensional lists of reals, and a number, a 0-dimensional array and an array with one
entry are identified (numpy broadcasts all three alike); flows other than plain `NumericFlow` are left out; raising is
`none`. Division by zero inside numpy (which gives `inf`) is `none` for
literals, and so is any further operation on an object array of functions.
-/
namespace Verif.Obj

/-- A number or an array. -/
abbrev Val := List ℝ

/-- The shape numpy broadcasts two shapes to. -/
def bshape (p q : Nat) : Option Nat :=
  if p = q then some p else if p = 1 then some q else if q = 1 then some p else none

/-- Entry `i` of an array stretched to a larger shape. -/
def bget (a : Val) (i : Nat) : ℝ := a.getD (if a.length = 1 then 0 else i) 0

/-- A numpy operation on two arrays: elementwise after broadcasting, raising if the shapes do not match. -/
def bc (f : ℝ → ℝ → ℝ) (a b : Val) : Option Val :=
  (bshape a.length b.length).map fun n => (List.range n).map fun i => f (bget a i) (bget b i)

/-- Objects of the function classes: any other function (its value comes from the environment), `Constant`, `Sum`,
`Product`, `Power`. goos/math.py 71, 244, 283, 330; objective.py 364, 505, 560, 617 -/
inductive Fn where
  | leaf (i : Nat)
  | const (v : Val)
  | sum (l : List Fn)
  | prod (l : List Fn)
  | pow (f : Fn) (p : ℝ)

/-- Python objects that occur as operands: functions, numbers, arrays, and numpy object arrays of functions. -/
inductive PyObj where
  | fn (f : Fn)
  | num (x : ℝ)
  | arr (l : Val)
  | objs (l : List Fn)

/-! ### goos: building -/

/-- `Function.__add__` and `Sum.__add__`. goos/math.py 15-27, 268-280. Adding the number 0 returns the function itself
unless it is a `Sum`. -/
noncomputable def gAdd (f : Fn) (o : PyObj) : Option Fn :=
  match f, o with
  | .sum l, .fn (.sum m) => some (.sum (l ++ m))
  | .sum l, .fn g => some (.sum (l ++ [g]))
  | .sum l, .num x => some (.sum (l ++ [.const [x]]))
  | .sum l, .arr a => some (.sum (l ++ [.const a]))
  | f, .fn (.sum m) => some (.sum (m ++ [f]))
  | f, .fn g => some (.sum [f, g])
  | f, .num x => if x = 0 then some f else some (.sum [f, .const [x]])
  | f, .arr a => some (.sum [f, .const a])
  | _, .objs _ => none

/-- `Function.__mul__` and `Product.__mul__`. goos/math.py 29-41, 316-327. Multiplying by the number 1 returns the
function itself unless it is a `Product`. -/
noncomputable def gMul (f : Fn) (o : PyObj) : Option Fn :=
  match f, o with
  | .prod l, .fn (.prod m) => some (.prod (l ++ m))
  | .prod l, .fn g => some (.prod (l ++ [g]))
  | .prod l, .num x => some (.prod (l ++ [.const [x]]))
  | .prod l, .arr a => some (.prod (l ++ [.const a]))
  | f, .fn (.prod m) => some (.prod (m ++ [f]))
  | f, .fn g => some (.prod [f, g])
  | f, .num x => if x = 1 then some f else some (.prod [f, .const [x]])
  | f, .arr a => some (.prod [f, .const a])
  | _, .objs _ => none

/-- `Function.__neg__`: `-1 * self`. goos/math.py 55-56 -/
noncomputable def gNeg (f : Fn) : Option Fn := gMul f (.num (-1))

/-- `-obj` for an operand. -/
noncomputable def oNeg (neg : Fn → Option Fn) (o : PyObj) : Option PyObj :=
  match o with
  | .fn f => (neg f).map .fn
  | .num x => some (.num (-x))
  | .arr a => some (.arr (a.map (- ·)))
  | .objs _ => none

/-- `Function.__sub__`: `self + (-obj)`. goos/math.py 49-50 -/
noncomputable def gSub (f : Fn) (o : PyObj) : Option Fn := (oNeg gNeg o).bind (gAdd f)

/-- `Function.__rsub__`: `-self + obj`. goos/math.py 52-53 -/
noncomputable def gRsub (f : Fn) (o : PyObj) : Option Fn := (gNeg f).bind fun h => gAdd h o

/-- `obj**-1` for an operand; `0**-1` raises. -/
noncomputable def oInv (o : PyObj) : Option PyObj :=
  match o with
  | .fn f => some (.fn (.pow f (-1)))
  | .num x => if x = 0 then none else some (.num x⁻¹)
  | .arr a => if 0 ∈ a then none else some (.arr (a.map (·⁻¹)))
  | .objs _ => none

/-- `Function.__truediv__`: `self * obj**-1`. goos/math.py 58-59 -/
noncomputable def gDiv (f : Fn) (o : PyObj) : Option Fn := (oInv o).bind (gMul f)

/-- `Function.__rtruediv__`: `self**-1 * obj`. goos/math.py 61-62 -/
noncomputable def gRdiv (f : Fn) (o : PyObj) : Option Fn := gMul (.pow f (-1)) o

/-! ### invdes: building -/

/-- `Constant.__add__`, `Sum.__add__` and `OptimizationFunction.__add__`. objective.py 393-401, 538-550, 127-140 -/
noncomputable def iAdd (f : Fn) (o : PyObj) : Option Fn :=
  match f, o with
  | .const u, .fn (.const v) => (bc (· + ·) u v).map .const
  | .const u, .num x => (bc (· + ·) u [x]).map .const
  | .const u, .arr a => (bc (· + ·) u a).map .const
  | .sum l, .fn (.sum m) => some (.sum (l ++ m))
  | .sum l, .fn g => some (.sum (l ++ [g]))
  | .sum l, .num x => some (.sum (l ++ [.const [x]]))
  | .sum l, .arr a => some (.sum (l ++ [.const a]))
  | f, .fn (.sum m) => some (.sum (m ++ [f]))
  | f, .fn g => some (.sum [f, g])
  | f, .num x => some (.sum [f, .const [x]])
  | f, .arr a => some (.sum [f, .const a])
  | _, .objs _ => none

/-- `Constant.__mul__`, `Product.__mul__` and `OptimizationFunction.__mul__`. objective.py 403-411, 596-606, 142-153.
With an array, the last one returns a `Sum` (lines 149-150). -/
noncomputable def iMul (f : Fn) (o : PyObj) : Option Fn :=
  match f, o with
  | .const u, .fn (.const v) => (bc (· * ·) u v).map .const
  | .const u, .num x => (bc (· * ·) u [x]).map .const
  | .const u, .arr a => (bc (· * ·) u a).map .const
  | .prod l, .fn (.prod m) => some (.prod (l ++ m))
  | .prod l, .fn g => some (.prod (l ++ [g]))
  | .prod l, .num x => some (.prod (l ++ [.const [x]]))
  | .prod l, .arr a => some (.prod (l ++ [.const a]))
  | f, .fn (.prod m) => some (.prod (m ++ [f]))
  | f, .fn g => some (.prod [f, g])
  | f, .num x => some (.prod [f, .const [x]])
  | f, .arr a => some (.sum [f, .const a])
  | _, .objs _ => none

/-- `Constant.__neg__` and `OptimizationFunction.__neg__`. objective.py 413-414, 174-175 -/
noncomputable def iNeg (f : Fn) : Option Fn :=
  match f with
  | .const u => some (.const (u.map (- ·)))
  | f => iMul f (.num (-1))

/-- `OptimizationFunction.__sub__`. objective.py 168-169 -/
noncomputable def iSub (f : Fn) (o : PyObj) : Option Fn := (oNeg iNeg o).bind (iAdd f)

/-- `OptimizationFunction.__rsub__`. objective.py 171-172 -/
noncomputable def iRsub (f : Fn) (o : PyObj) : Option Fn := (iNeg f).bind fun h => iAdd h o

/-- `Constant.__pow__` and `OptimizationFunction.__pow__` with a number. objective.py 416-417, 155-160 -/
noncomputable def iPow (f : Fn) (p : ℝ) : Option Fn :=
  match f with
  | .const u => some (.const (u.map (· ^ p)))
  | f => some (.pow f p)

/-! ### Expressions as the user writes them -/

/-- An expression over functions (`leaf i`), number and array literals. -/
inductive Ex where
  | leaf (i : Nat)
  | num (x : ℝ)
  | arr (l : Val)
  | add (a b : Ex)
  | sub (a b : Ex)
  | mul (a b : Ex)
  | div (a b : Ex)
  | neg (a : Ex)
  | pow (a : Ex) (p : ℝ)

/-- The operators of one of the two libraries. -/
structure Ops where
  add : Fn → PyObj → Option Fn
  mul : Fn → PyObj → Option Fn
  sub : Fn → PyObj → Option Fn
  rsub : Fn → PyObj → Option Fn
  div : Fn → PyObj → Option Fn
  rdiv : Fn → PyObj → Option Fn
  neg : Fn → Option Fn
  pow : Fn → ℝ → Option Fn

/-- goos/math.py 12-68 -/
noncomputable def goosOps : Ops := ⟨gAdd, gMul, gSub, gRsub, gDiv, gRdiv, gNeg, fun f p => some (.pow f p)⟩

/-- objective.py 127-175; there is no division. -/
noncomputable def invdesOps : Ops := ⟨iAdd, iMul, iSub, iRsub, fun _ _ => none, fun _ _ => none, iNeg, iPow⟩

/-- All or nothing. -/
def allSome {α : Type} : List (Option α) → Option (List α)
  | [] => some []
  | x :: l => x.bind fun y => (allSome l).map (y :: ·)

/-- Python's dispatch of a binary operator. With a function on the left its method is called; with a number on the left
and a function on the right the reflected method of the function; with an array on the left numpy takes over and applies
the operator to every entry of the array separately, giving an object array. Between numbers and arrays it is numpy's own
operation. -/
noncomputable def dispatch (m r : Fn → PyObj → Option Fn) (native : ℝ → ℝ → ℝ) (a b : PyObj) : Option PyObj :=
  match a, b with
  | .fn f, b => (m f b).map .fn
  | .num x, .fn g => (r g (.num x)).map .fn
  | .arr l, .fn g => (allSome (l.map fun x => r g (.num x))).map .objs
  | .num x, .num y => some (.num (native x y))
  | .num x, .arr b => (bc native [x] b).map .arr
  | .arr a, .num y => (bc native a [y]).map .arr
  | .arr a, .arr b => (bc native a b).map .arr
  | _, _ => none

/-- The object Python builds for an expression. -/
noncomputable def build (ops : Ops) : Ex → Option PyObj
  | .leaf i => some (.fn (.leaf i))
  | .num x => some (.num x)
  | .arr l => some (.arr l)
  | .add a b => (build ops a).bind fun x => (build ops b).bind fun y => dispatch ops.add ops.add (· + ·) x y
  | .sub a b => (build ops a).bind fun x => (build ops b).bind fun y => dispatch ops.sub ops.rsub (· - ·) x y
  | .mul a b => (build ops a).bind fun x => (build ops b).bind fun y => dispatch ops.mul ops.mul (· * ·) x y
  | .div a b => (build ops a).bind fun x => (build ops b).bind fun y => dispatch ops.div ops.rdiv (· / ·) x y
  | .neg a => (build ops a).bind (oNeg ops.neg)
  | .pow a p => (build ops a).bind fun x =>
      match x with
      | .fn f => (ops.pow f p).map .fn
      | .num x => some (.num (x ^ p))
      | .arr l => some (.arr (l.map (· ^ p)))
      | .objs _ => none

/-! ### Evaluation -/

/-- `find_dominant_numeric_flow` returns rather than raises, for plain numeric flows: all shapes are equal or at most one
input has more than one entry. goos/math.py 188-241 -/
def domOk (vs : List Val) : Prop :=
  match vs with
  | [] => False
  | v :: _ => (∀ w ∈ vs, w.length = v.length) ∨ (vs.filter fun w => decide (1 < w.length)).length ≤ 1

instance (vs : List Val) : Decidable (domOk vs) := by
  unfold domOk
  split <;> infer_instance

/-- `np.sum(list, axis=0)` resp. `sum(list)`. goos/math.py 254, objective.py 532 -/
def npSum (vs : List Val) : Option Val := vs.foldlM (bc (· + ·)) [0]

/-- `np.prod(list, axis=0)` resp. the loop `total *= obj`. goos/math.py 292, objective.py 580-584 (the in-place
multiplication of the latter is modelled as a plain one) -/
def npProd (vs : List Val) : Option Val := vs.foldlM (bc (· * ·)) [1]

/-- What differs in the evaluation of the two libraries: the check before summing and multiplying. -/
abbrev Check := List Val → Prop

mutual
/-- Value of a function, given the values of the leaves. goos/math.py 84-86, 251-255, 290-293, 337-341;
objective.py 385-387, 531-532, 580-584, 636-637 -/
noncomputable def evalFn (chk : Check) (env : Nat → Val) : Fn → Option Val
  | .leaf i => some (env i)
  | .const v => some v
  | .sum l => (evalFns chk env l).bind fun vs => open Classical in if chk vs then npSum vs else none
  | .prod l => (evalFns chk env l).bind fun vs => open Classical in if chk vs then npProd vs else none
  | .pow f p => (evalFn chk env f).map fun v => v.map (· ^ p)
/-- Values of a list of functions. -/
noncomputable def evalFns (chk : Check) (env : Nat → Val) : List Fn → Option (List Val)
  | [] => some []
  | f :: l => (evalFn chk env f).bind fun v => (evalFns chk env l).map (v :: ·)
end

/-- goos evaluates with the check of `find_dominant_numeric_flow`. -/
noncomputable def goosEval (env : Nat → Val) (f : Fn) : Option Val := evalFn domOk env f

/-- invdes evaluates without a check. -/
noncomputable def invdesEval (env : Nat → Val) (f : Fn) : Option Val := evalFn (fun _ => True) env f

end Verif.Obj
