import Verif.Plan.ScipyInvParams
import Verif.Fdfd.EmChain
/-
The functions that the optimizer of `spins.invdes` is given, in terms of the structure: `eval_fun` and `eval_grad` of
`spins/invdes/problem/graph_executor.py` for a function of the structure, between a parametrization and the functions of the problem
graph, as `calculate_objective_function` and `calculate_gradient` of `spins/invdes/problem/objective.py` (72-92) call them.
-/
namespace Verif.Plan.Inv
open Verif.Opt Verif.Cubic Verif.Grating Verif.Fdfd

variable {P : Type} {m : Nat}

/-- A parametrization class with `get_structure` and `calculate_gradient`. `none` is an exception. -/
structure ParamClass (P : Type) extends Methods P where
  getStructure : P → Option (List ℝ)
  calculateGradient : P → Option (SpMat ℝ)

/-- `DirectParam`, parametrization.py 145-169. -/
noncomputable def directClass : ParamClass Direct where
  toMethods := directMethods
  getStructure p := some p.vector
  calculateGradient p := some (SpMat.eye p.vector.length)

/-- `CubicParam`, parametrization.py 240-267. -/
noncomputable def cubicClass : ParamClass CubicParam where
  toMethods := cubicMethods
  getStructure p := p.getStructure.toOption
  calculateGradient p := p.calculateGradient.toOption

/-- `HermiteParam`, parametrization.py 430-462. -/
noncomputable def hermiteClass : ParamClass HermiteParam where
  toMethods := hermiteMethods
  getStructure p := p.getStructure.toOption
  calculateGradient p := p.calculateGradient.toOption

/-- A function of the problem graph as a function of the value of its `Variable` node: its value (`_eval_fun_vals`,
graph_executor.py 89-181) and what the backward pass leaves for that node (`grad_vals[in_node]`, 239-302). `m` is the number of entries of
the structure. How the passes compute them for a graph is C01 and C04. -/
structure StructFn (m : Nat) where
  value : List ℝ → Option ℝ
  grad : List ℝ → Option (Fin m → ℝ)

/-- `eval_fun` for one function with one `Variable`, 41-86. -/
def evalFun (M : ParamClass P) (o : StructFn m) (p : P) : Option (List ℝ) :=
  (M.getStructure p).bind fun s => (o.value s).map fun v => [v]

/-- `g @ A` for a row `g`. -/
def rowMul (g : Fin m → ℝ) (A : SpMat ℝ) : List ℝ := (List.range A.cols).map fun j => ∑ i : Fin m, g i * A.ent i j

/-- `eval_grad` for a function with one `Variable`, 184-312: `grad_vals[in_node] @ param.calculate_gradient()`. -/
def evalGrad (M : ParamClass P) (o : StructFn m) (p : P) : Option (List ℝ) :=
  (M.getStructure p).bind fun s => (o.grad s).bind fun g => (M.calculateGradient p).bind fun A =>
    if A.rows = m then some (rowMul g A) else none

/-- The optimizer's view of a parametrization class and of functions of the structure. -/
def structWorld (M : ParamClass P) (m : Nat) : World P ℝ (StructFn m) := worldOf M.toMethods (evalFun M) (evalGrad M)

/-- A simulation with the absolute values of overlaps: `Epsilon`, `FdfdSimulation`, `OverlapFunction`s with their `AbsoluteValue`
(creator_em.py 481-712, objective.py 653-673). -/
structure OverlapSim (sh : Shape) (m : Nat) where
  c : SimCfg sh
  bg : VField sh.size
  S : Matrix (Fin 3 × Fin sh.size) (Fin m) ℂ
  isReal : Bool
  k : Nat
  Cs : Fin k → VField sh.size

/-- The absolute values. A structure of another length raises. -/
noncomputable def OverlapSim.mags {sh : Shape} (o : OverlapSim sh m) (s : List ℝ) : Option (Fin o.k → ℝ) :=
  if s.length = m then
    (simFields o.c (epsilonEval o.bg o.S fun j => s.getD j 0)).map fun E i => absFnEval (overlapFnEval (o.Cs i) E)
  else none

/-- A function of the absolute values of overlaps of several simulations of the same structure (at other wavelengths or with other
sources), each with its own `Epsilon` node: on top of the absolute values any nodes, with the value `Φ` and the derivatives `dΦ` with
respect to the absolute values. The backward pass adds up what the simulations pass to the `Variable` node
(graph_executor.py 264-266, 298-300). -/
structure OverlapFn (sh : Shape) (m : Nat) where
  q : Nat
  sims : Fin q → OverlapSim sh m
  Φ : ((i : Fin q) → Fin (sims i).k → ℝ) → ℝ
  dΦ : ((i : Fin q) → Fin (sims i).k → ℝ) → (i : Fin q) → Fin (sims i).k → ℝ

/-- The absolute values of all simulations; an exception in one is an exception. -/
noncomputable def OverlapFn.mags {sh : Shape} (o : OverlapFn sh m) (s : List ℝ) : Option ((i : Fin o.q) → Fin (o.sims i).k → ℝ) :=
  open Classical in
  if h : ∀ i, ((o.sims i).mags s).isSome then some fun i => ((o.sims i).mags s).get (h i) else none

noncomputable def OverlapFn.fn {sh : Shape} (o : OverlapFn sh m) : StructFn m where
  value s := (o.mags s).map o.Φ
  grad s := (o.mags s).bind fun a =>
    (List.finRange o.q).foldlM (fun (acc : Fin m → ℝ) i =>
      (overlapsBackward (o.sims i).c (o.sims i).bg (o.sims i).S (o.sims i).isReal (o.sims i).Cs (fun j => s.getD j 0) (o.dΦ a i)).map
        (acc + ·)) 0

end Verif.Plan.Inv
