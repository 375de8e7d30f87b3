import Mathlib.Analysis.SpecialFunctions.Pow.Real
/-
Model of the transformation `PenaltyOptimizer`, spins/invdes/problem_graph/creator_opt.py 202-366, with the loop of the optimizer that
it runs, spins/invdes/optimization/constrained_optimizer.py 33-111 (C49 is about that optimizer alone).

Simplifications. The value of a parametrization is of a type `Val`, and logging it and restoring it gives it back. The library that
minimises within one cycle is a parameter: a state, a step, and at most `maxiter` steps; it sees the penalty factor and the tolerance.
An option that is not set is `none`. Numbers are exact.
-/
namespace Verif.Work.Penalty

variable {Val Mem : Type}

/-- The point of the optimizer: the parametrization and the slack variables. slack_optimization_problem.py 54-66 -/
structure Point (Val : Type) where
  val : Val
  slack : List ℝ

/-- The minimiser of one cycle, given the penalty factor and the tolerance: its state at a starting point, and a step, `none` when it
has converged. constrained_optimizer.py 83-104 -/
structure Inner (Val Mem : Type) where
  setup : ℝ → ℝ → Point Val → Mem
  step : ℝ → ℝ → Mem → Point Val → Option (Mem × Point Val)

/-- `PenaltyOptimizerOptions`. optplan/schema_opt.py 32-51 -/
structure Options where
  mu0 : Option ℝ
  tau : Option ℝ
  ftol : Option ℝ
  numCycles : Option Nat
  maxiter : Option Nat

/-- The options of the optimizer. constrained_optimizer.py 48-55 -/
structure Cfg where
  mu0 : ℝ
  tau : ℝ
  ftol : ℝ
  numCycles : Nat
  maxiter : Nat

/-- `if not value: del optimization_options[key]` (creator_opt.py 249-252), and later `options.get(key, default)`. -/
noncomputable def getR (o : Option ℝ) (default : ℝ) : ℝ :=
  match o with
  | some v => open Classical in if v = 0 then default else v
  | none => default

/-- The same for whole numbers. -/
def getN (o : Option Nat) (default : Nat) : Nat :=
  match o with
  | some v => if v = 0 then default else v
  | none => default

/-- `optim.PenaltyOptimizer(options=self.optimization_options)`. creator_opt.py 342-343, constrained_optimizer.py 48-55 -/
noncomputable def mkCfg (o : Options) : Cfg :=
  ⟨getR o.mu0 2, getR o.tau (3 / 2), getR o.ftol (1 / 10 ^ 9), getN o.numCycles 10, getN o.maxiter 30⟩

/-- The event dictionaries. creator_opt.py 205-213, 295-297, 327-333, 362 -/
inductive Event
  | start
  | optimizing (iteration cycle : Nat) (mu : ℝ)
  | finish

/-- The points of one cycle, one per iteration. -/
def points (inner : Inner Val Mem) (mu ftol : ℝ) : Nat → Mem → Point Val → List (Point Val)
  | 0, _, _ => []
  | n + 1, m, x =>
    match inner.step mu ftol m x with
    | none => []
    | some (m, x) => x :: points inner mu ftol n m x

/-- The tolerance of a cycle: `max(1 / 100**(k + 1), self.ftol)`. constrained_optimizer.py 83 -/
noncomputable def tol (c : Cfg) (k : Nat) : ℝ := max (1 / 100 ^ (k + 1)) c.ftol

/-- One cycle: the points that are passed to the callback. constrained_optimizer.py 73-106 -/
noncomputable def cycle (inner : Inner Val Mem) (c : Cfg) (k : Nat) (mu : ℝ) (x : Point Val) : List (Point Val) :=
  points inner mu (tol c k) c.maxiter (inner.setup mu (tol c k) x) x

/-- The loop over the cycles: the points with their cycle and penalty factor, and the last point. constrained_optimizer.py 70-111 -/
noncomputable def cycles (inner : Inner Val Mem) (c : Cfg) : List Nat → ℝ → Point Val → List (Nat × ℝ × Point Val) × Point Val
  | [], _, x => ([], x)
  | k :: ks, mu, x =>
    let p := cycle inner c k mu x
    let r := cycles inner c ks (mu ^ c.tau) (p.getLastD x)
    (p.map (fun y => (k, mu, y)) ++ r.1, r.2)

/-- The callback: the iterations are counted on from `i`. creator_opt.py 320-337 -/
def count (i : Nat) : List (Nat × ℝ × Point Val) → List (Event × Val)
  | [] => []
  | (k, mu, x) :: l => (.optimizing (i + 1) k mu, x.val) :: count (i + 1) l

/-- `_iterate`: the logs and the value at the end. The slack variables start at zero. creator_opt.py 303-352,
slack_optimization_problem.py 64-66 -/
noncomputable def iterate (inner : Inner Val Mem) (c : Cfg) (numSlack : Nat) (callback : Bool) (v : Val) (event : Option Event) :
    List (Event × Val) × Val :=
  let start : Nat × Nat × ℝ := match event with
    | some (.optimizing i k mu) => (i, k, mu)
    | _ => (0, 0, c.mu0)
  let r := cycles inner c (List.range' start.2.1 (c.numCycles - start.2.1)) start.2.2 ⟨v, List.replicate numSlack 0⟩
  (if callback then count start.1 r.1 else [], r.2.val)

/-- `PenaltyOptimizer.__call__`: what it logs, and the value of the parametrization at the end. creator_opt.py 259-284 -/
noncomputable def run (inner : Inner Val Mem) (c : Cfg) (numSlack : Nat) (callback : Bool) (v : Val) (event : Option Event) :
    List (Event × Val) × Val :=
  match event with
  | none =>
    let r := iterate inner c numSlack callback v none
    ((.start, v) :: r.1 ++ [(.finish, r.2)], r.2)
  | some .finish => ([], v)
  | some e =>
    let r := iterate inner c numSlack callback v (some e)
    (r.1 ++ [(.finish, r.2)], r.2)

end Verif.Work.Penalty
