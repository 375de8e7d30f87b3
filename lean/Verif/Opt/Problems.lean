import Verif.Obj.Expr
/-
Model of the benchmark problems of `spins/invdes/optimization/problems.py`, built from the nodes of `Verif.Obj.Expr`.

Simplifications: numbers are reals; a problem carries the functions its nodes refer to as leaves (`Variable`, its slices
and the three old-style objectives) in a list, and a leaf of the graph is an index into this list; the structure of the
`DirectParam` is its vector. Evaluation of the graph is that of `Verif.Obj.evalFn`.
-/
namespace Verif.Opt.Problems
open Verif.Obj

/-- The functions at the leaves of the graphs: `Variable`, `ValueSlice`, `PlaneObjective`, `QuadObjective`,
`SphereObjective`. objective.py 337-361, 470-502; problems.py 99-145 -/
inductive Leaf where
  | whole
  | slice (i : Nat)
  | plane
  | quad (r0 : Val)
  | sphere (radius : ℝ) (r0 : Val)

/-- `np.ones_like(a) @ b`, for arrays of one length. -/
def onesDot (a b : Val) : ℝ := ((List.zipWith (fun _ y => 1 * y) a b)).sum

/-- Value of a leaf for a structure. objective.py 492-493; problems.py 108-110, 125-127, 143-145 -/
def Leaf.value (x : Val) : Leaf → Option Val
  | .whole => some x
  | .slice i => (x[i]?).map fun v => [v]
  | .plane => some [(List.zipWith (fun _ y => -1 * y) x x).sum]
  | .quad r0 => (bc (· - ·) x r0).map fun w => [onesDot x (w.map (· ^ 2))]
  | .sphere radius r0 => (bc (· - ·) x r0).map fun w => [radius ^ 2 - onesDot x (w.map (· ^ 2))]

/-- Gradient of the three old-style objectives; the other leaves are differentiated by the graph. problems.py 104-106,
121-123, 139-141 -/
def Leaf.grad (x : Val) : Leaf → Option Val
  | .whole => none
  | .slice _ => none
  | .plane => some (x.map fun _ => -1)
  | .quad r0 => (bc (· - ·) x r0).map fun w => w.map (2 * ·)
  | .sphere _ r0 => (bc (· - ·) x r0).map fun w => w.map (-2 * ·)

/-- What a `build_*` function returns: the objective with its constraints (none for a plain objective), the start and
bounds of the `DirectParam`, and the optimum. problems.py 3-5 -/
structure Problem where
  leaves : List Leaf
  obj : Fn
  consEq : List Fn
  consIneq : List Fn
  start : Val
  lo : ℝ
  hi : ℝ
  optimum : Val

/-- `calculate_objective_function` of a node of the problem. objective.py 83-92 -/
noncomputable def Problem.eval (P : Problem) (f : Fn) (x : Val) : Option Val :=
  (allSome (P.leaves.map (Leaf.value x))).bind fun vs => invdesEval (fun i => vs.getD i []) f

/-- `OptimizationProblem.calculate_constraints`: all constraints are evaluated in one list, which is then cut.
objective.py 278-292 -/
noncomputable def Problem.constraints (P : Problem) (x : Val) : Option (List Val × List Val) :=
  (allSome ((P.consEq ++ P.consIneq).map fun f => P.eval f x)).map fun cons =>
    (cons.take P.consEq.length, cons.drop P.consEq.length)

/-- problems.py 22-31 -/
def singleVariableQuadratic : Problem where
  leaves := [.whole]
  obj := .sum [.prod [.leaf 0, .leaf 0], .prod [.const [-4], .leaf 0], .const [1]]
  consEq := []
  consIneq := []
  start := [0]
  lo := -10
  hi := 10
  optimum := [2]

/-- problems.py 46-51 -/
def quarticObj : Fn :=
  .prod [.sum [.leaf 0, .const [-2]], .sum [.leaf 0, .const [-3]], .sum [.leaf 0, .const [1]], .sum [.leaf 0, .const [1]]]

/-- problems.py 34-60. The optimum is returned as a number, which is an array with one entry here. Any other instance
returns `None`. -/
noncomputable def singleVariableQuartic (inst : Int) : Option Problem :=
  if inst = 0 then some ⟨[.whole], quarticObj, [], [], [1], -10, 10, [(13 + √57) / 8]⟩
  else if inst = 1 then some ⟨[.whole], quarticObj, [], [], [0], -10, 10, [-1]⟩
  else none

/-- problems.py 63-76 -/
noncomputable def twoVariableQuadratic : Problem where
  leaves := [.slice 0, .slice 1]
  obj := .sum [.prod [.leaf 0, .leaf 0], .prod [.const [2], .leaf 1, .leaf 1], .prod [.const [-5], .leaf 1],
    .prod [.const [-2], .leaf 0, .leaf 1]]
  consEq := []
  consIneq := []
  start := [0, 0]
  lo := -10
  hi := 10
  optimum := [5 / 2, 5 / 2]

/-- problems.py 89 -/
def xMinusA (a : ℝ) : Fn := .sum [.leaf 0, .const [-a]]

/-- problems.py 90 -/
def yMinusX2 : Fn := .sum [.leaf 1, .prod [.const [-1], .leaf 0, .leaf 0]]

/-- problems.py 79-96 -/
def rosenbrock (a b : ℝ) : Problem where
  leaves := [.slice 0, .slice 1]
  obj := .sum [.prod [xMinusA a, xMinusA a], .prod [.const [b], .prod [yMinusX2, yMinusX2]]]
  consEq := []
  consIneq := []
  start := [0, 0]
  lo := -10
  hi := 10
  optimum := [a, a ^ 2]

/-- Leaves of the two problems with circles: the objective, and the two spheres. problems.py 149-151, 166-168 -/
def circleLeaves (obj : Leaf) : List Leaf := [obj, .sphere 1 [0, 0], .sphere 1 [1, 0]]

/-- `-SphereObjective(...)` with the operators of `OptimizationFunction`. problems.py 150-151, 167-168 -/
noncomputable def negated (i : Nat) : Option Fn := iNeg (.leaf i)

/-- problems.py 148-162. Another instance raises `UnboundLocalError`. -/
noncomputable def constrainedLinear (inst : Int) : Option Problem :=
  (negated 1).bind fun cons0 => (negated 2).bind fun cons1 =>
    if inst = 0 then some ⟨circleLeaves .plane, .leaf 0, [cons0], [cons1], [0.5, 0.5], -1, 1, [1 / √2, 1 / √2]⟩
    else if inst = 1 then
      some ⟨circleLeaves .plane, .leaf 0, [cons1], [cons0], [0.5, 0.5], -1, 1, [0.5, √(1 - 0.5 ^ 2)]⟩
    else none

/-- problems.py 165-183. Another instance raises `UnboundLocalError`. -/
noncomputable def constrainedQuadratic (inst : Int) : Option Problem :=
  (negated 1).bind fun cons0 => (negated 2).bind fun cons1 =>
    if inst = 0 then
      some ⟨circleLeaves (.quad [-0.5, 0]), .leaf 0, [cons1], [cons0], [0.5, 0.5], -1, 1, [0, 0]⟩
    else if inst = 1 then some ⟨circleLeaves (.quad [-0.5, 0]), .leaf 0, [cons1], [], [0.5, 0.5], -1, 1, [0, 0]⟩
    else if inst = 2 then some ⟨circleLeaves (.quad [-0.5, 0]), .leaf 0, [], [cons0], [0.5, 0.5], -1, 1, [-0.5, 0]⟩
    else none

/-- `x_var**2 + 2 * y_var**2 - 5 * y_var - 2 * x_var * y_var`. problems.py 192 -/
noncomputable def ellipsoidEx : Ex :=
  .sub (.sub (.add (.pow (.leaf 0) 2) (.mul (.num 2) (.pow (.leaf 1) 2))) (.mul (.num 5) (.leaf 1)))
    (.mul (.mul (.num 2) (.leaf 0)) (.leaf 1))

/-- `y_var - x_var + 1`. problems.py 193 -/
noncomputable def ellipsoidConsEx : Ex := .add (.sub (.leaf 1) (.leaf 0)) (.num 1)

/-- The function an expression builds. -/
noncomputable def buildFn (e : Ex) : Option Fn :=
  (build invdesOps e).bind fun o =>
    match o with
    | .fn f => some f
    | _ => none

/-- problems.py 186-196 -/
noncomputable def constrainedEllipsoidal : Option Problem :=
  (buildFn ellipsoidEx).bind fun obj => (buildFn ellipsoidConsEx).map fun cons =>
    ⟨[.slice 0, .slice 1], obj, [], [cons], [0, 0], -10, 10, [7 / 2, 5 / 2]⟩

/-- problems.py 199-207 -/
noncomputable def constrainedProblemList : Option (List Problem) :=
  allSome ([constrainedEllipsoidal] ++ (List.range 2).map (fun i => constrainedLinear i) ++
    (List.range 3).map fun i => constrainedQuadratic i)

end Verif.Opt.Problems
