import Verif.Opt.Param
import Mathlib.Analysis.SpecialFunctions.Pow.Real
/-
Model of `spins/invdes/problem/slack_optimization_problem.py` (`SlackOptimizationProblem`, `SlackVariable`,
`SlackRemover`) and `spins/invdes/optimization/constrained_optimizer.py` (`PenaltyOptimizer`,
`AugmentedLagrangianOptimizer`).

An optimization function is given by what `calculate_objective_function` and `calculate_gradient` return for a
parametrization (`none` is an exception). The values and gradients of the sums, products and powers of such functions
the optimizers build are written out directly: that the graph executor computes them is C01, C04 and C48. Numbers are
exact reals. Loggers are left out.
-/
namespace Verif.Opt

variable {P : Type}

/-- An optimization function: its value and its gradient with respect to the vector of the parametrization. -/
structure OFun (P : Type) where
  value : P → Option ℝ
  grad : P → Option (List ℝ)

/-- Sum of two arrays of the same length. -/
def vadd (a b : List ℝ) : Option (List ℝ) := if a.length = b.length then some (List.zipWith (· + ·) a b) else none

/-- `f + g` for two optimization functions: a `Sum`. objective.py 127-140, 531-536 -/
def OFun.add (f g : OFun P) : OFun P where
  value p := (f.value p).bind fun a => (g.value p).map fun b => a + b
  grad p := (f.grad p).bind fun a => (g.grad p).bind fun b => vadd a b

/-- `OptimizationProblem`. objective.py 238-263 -/
structure Problem (P : Type) where
  obj : OFun P
  eqs : List (OFun P)
  ineqs : List (OFun P)

/-! ### Slack variables -/

/-- `gradient[-k] = x`. -/
def setFromEnd (l : List ℝ) (k : Nat) (x : ℝ) : Option (List ℝ) :=
  if 0 < k ∧ k ≤ l.length then some (l.set (l.length - k) x) else none

/-- `SlackVariable`. slack_optimization_problem.py 114-133 -/
def slackVar (m : Methods P) (n i : Nat) : OFun (Slack P) where
  value s := s.slack[i]?
  grad s := ((slackMethods m).toVector s).bind fun v => setFromEnd (List.replicate v.length 0) (n - i) 1

/-- `SlackRemover`. slack_optimization_problem.py 136-160 -/
def remover (n : Nat) (f : OFun P) : OFun (Slack P) where
  value s := f.value s.param
  grad s := (f.grad s.param).map fun g => g ++ List.replicate n 0

/-- `SlackOptimizationProblem.__init__`. slack_optimization_problem.py 29-48 -/
def slackProblem (m : Methods P) (q : Problem P) : Problem (Slack P) where
  obj := remover q.ineqs.length q.obj
  eqs := q.eqs.map (remover q.ineqs.length) ++
    q.ineqs.zipIdx.map fun fi => (remover q.ineqs.length fi.1).add (slackVar m q.ineqs.length fi.2)
  ineqs := []

/-- `SlackOptimizationProblem.build_param`. slack_optimization_problem.py 50-51 -/
def buildParam (q : Problem P) (p : P) : Slack P := mkSlack p q.ineqs.length

/-! ### PenaltyOptimizer -/

/-- One term `w * c**k` of the penalty: its contribution to the gradient is `w * k * c**(k-1)` times the gradient of `c`.
The exponent is a natural number (the default is 2); others are not modelled. -/
def powTerm (w : ℝ) (k : Nat) (c : OFun P) : OFun P where
  value p := (c.value p).map fun v => w * v ^ k
  grad p := (c.value p).bind fun v => (c.grad p).map fun g => g.map fun y => w * (k * v ^ (k - 1)) * y

/-- A function plus a sum of functions. -/
def addAll (f : OFun P) (l : List (OFun P)) : OFun P := l.foldl OFun.add f

/-- `opt.get_objective() + mu * Sum([eq**self.pf for eq in opt.get_equality_constraints()])`.
constrained_optimizer.py 77-81 -/
def penaltyObj (q : Problem P) (mu : ℝ) (pf : Nat) : OFun P := addAll q.obj (q.eqs.map (powTerm mu pf))

/-- Options. constrained_optimizer.py 48-55 -/
structure PenCfg where
  mu0 : ℝ
  tau : ℝ
  pf : Nat
  numCycles : Nat
  ftol : ℝ

/-- One call of the inner optimizer: cycle number, penalty factor, tolerance, objective and starting point. -/
structure PenCall (P : Type) where
  k : Nat
  mu : ℝ
  ftol : ℝ
  obj : OFun P
  start : P

/-- The inner optimizer: from an objective, a tolerance and a starting point to a new point. -/
abbrev Inner (P : Type) := OFun P → ℝ → P → Option P

/-- The loop over the cycles; returns `self.cycle_num`, the calls made and the final point. constrained_optimizer.py
72-110 -/
noncomputable def penCycles (inner : Inner P) (c : PenCfg) (q : Problem P) :
    List Nat → ℝ → Nat → P → Nat × List (PenCall P) × Option P
  | [], _, cn, s => (cn, [], some s)
  | k :: ks, mu, _, s =>
    let call : PenCall P := ⟨k, mu, max (1 / 100 ^ (k + 1)) c.ftol, penaltyObj q mu c.pf, s⟩
    match inner call.obj call.ftol s with
    | none => (k, [call], none)
    | some s' =>
      let r := penCycles inner c q ks (mu ^ c.tau) k s'
      (r.1, call :: r.2.1, r.2.2)

/-- `PenaltyOptimizer.__call__`: `range(self.cycle_num, self.num_cycles)` cycles from `mu0`. constrained_optimizer.py
58-111. The result is the new `self.cycle_num`, the calls of the inner optimizer, and the returned parametrization. -/
noncomputable def penaltyCall (m : Methods P) (inner : Inner (Slack P)) (c : PenCfg) (q : Problem P) (cn : Nat) (p : P) :
    Nat × List (PenCall (Slack P)) × Option P :=
  let r := penCycles inner c (slackProblem m q) (List.range' cn (c.numCycles - cn)) c.mu0 cn (buildParam q p)
  (r.1, r.2.1, r.2.2.map fun s => s.param)

/-! ### AugmentedLagrangianOptimizer -/

/-- `opt.get_objective() + sgn * Sum(eqs, weights=lagr_var) + 0.5 * mu * Sum([eq**2 ...])` with `sgn = -1`.
constrained_optimizer.py 160-168 -/
noncomputable def lagrangianObj (q : Problem P) (lam : List ℝ) (mu : ℝ) : OFun P :=
  addAll (addAll q.obj (List.zipWith (fun l c => powTerm (-l) 1 c) lam q.eqs)) (q.eqs.map (powTerm (0.5 * mu) 2))

structure AlCfg where
  mu0 : ℝ
  muExp : ℝ
  lagrTol : ℝ
  consTol : ℝ
  numCycles : Nat

/-- `mu`, `lagr_var`, `lagrangian_tolerance`, `constraint_tolerance`. constrained_optimizer.py 149-154 -/
structure AlState where
  mu : ℝ
  lam : List ℝ
  lt : ℝ
  ct : ℝ

noncomputable def alInit (c : AlCfg) (q : Problem P) : AlState :=
  ⟨c.mu0, List.replicate q.eqs.length 1, 1 / c.mu0 ^ c.muExp, 1 / c.mu0 ^ (0.1 : ℝ)⟩

/-- After a cycle: stop, or the state for the next one. constrained_optimizer.py 184-198. `cv` are the values of the
constraints. -/
noncomputable def alUpdate (c : AlCfg) (st : AlState) (cv : List ℝ) : Option AlState :=
  open Classical in
  let err := (cv.map fun x => |x|).sum
  if err < st.ct then
    if st.lt < c.lagrTol ∧ err < c.consTol then none
    else some { st with
      lam := List.zipWith (fun l v => l + -1 * st.mu * v) st.lam cv
      ct := st.ct / st.mu ^ (0.9 : ℝ)
      lt := st.lt / st.mu }
  else some { st with mu := st.mu * 100, ct := 1 / (st.mu * 100) ^ (0.1 : ℝ), lt := 1 / (st.mu * 100) }

/-- A cycle that was run: the state it used, the objective, the point it ended at. -/
structure AlCycle (P : Type) where
  st : AlState
  obj : OFun P
  result : P

/-- The loop. constrained_optimizer.py 156-200. Returns the cycles run, whether it stopped by `break`, and the final
point. -/
noncomputable def alCycles (inner : Inner P) (c : AlCfg) (q : Problem P) :
    Nat → AlState → P → Option (List (AlCycle P) × Bool × P)
  | 0, _, s => some ([], false, s)
  | n + 1, st, s =>
    (inner (lagrangianObj q st.lam st.mu) st.lt s).bind fun s' =>
    (forAll (fun f : OFun P => f.value s') q.eqs).bind fun cv =>
    match alUpdate c st cv with
    | none => some ([⟨st, lagrangianObj q st.lam st.mu, s'⟩], true, s')
    | some st' => (alCycles inner c q n st' s').map fun r =>
        (⟨st, lagrangianObj q st.lam st.mu, s'⟩ :: r.1, r.2)

/-- `AugmentedLagrangianOptimizer.__call__`. constrained_optimizer.py 136-201 -/
noncomputable def alCall (m : Methods P) (inner : Inner (Slack P)) (c : AlCfg) (q : Problem P) (p : P) :
    Option (List (AlCycle (Slack P)) × Bool × P) :=
  (alCycles inner c (slackProblem m q) c.numCycles (alInit c (slackProblem m q)) (buildParam q p)).map fun r =>
    (r.1, r.2.1, r.2.2.param)

end Verif.Opt
