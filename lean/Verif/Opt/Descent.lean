import Verif.Opt.Param
import Mathlib.Analysis.Real.Sqrt
/-
Model of `spins/invdes/optimization/gradient_descent.py`. Numbers are exact real numbers; division by zero (which gives
infinities or NaN in numpy) gives zero. The objective and its gradient are arbitrary functions of the parametrization
that may raise (`none`); they do not change the parametrization. The number of passes through a `while True` is
bounded by fuel.
-/
namespace Verif.Opt

/-- How a loop ended: normally with the flag `iterate` returns, with an exception, or not yet. -/
inductive Out (S : Type) where
  | done (s : S) (stop : Bool)
  | raised (s : S)
  | more (s : S)

/-- What an optimizer holds about the problem: class of the parametrization, objective and gradient. -/
structure Prob (P : Type) where
  m : Methods P
  obj : P → Option ℝ
  grad : P → Option (List ℝ)

/-- Elementwise operation on two arrays of the same length (numpy raises otherwise; broadcasting of arrays of length
one is not modelled). -/
def vzip (f : ℝ → ℝ → ℝ) (a b : List ℝ) : Option (List ℝ) :=
  if a.length = b.length then some (List.zipWith f a b) else none

/-- `c * acc + d * g`, where `acc` is the number `0` (`none`) at the beginning. -/
def accum (c d : ℝ) (acc : Option (List ℝ)) (g : List ℝ) : Option (List ℝ) :=
  match acc with
  | none => some (g.map (d * ·))
  | some a => vzip (fun x y => c * x + d * y) a g

section
variable {P S : Type}

/-! ### The main loop -/

/-- `stop_iter and self._iters >= stop_iter` (92). -/
def reached (stopIter : Option Int) (n : Nat) : Bool :=
  match stopIter with | none => false | some t => decide (t ≠ 0) && decide (t ≤ (n : Int))

/-- The loop of `GradientOptimizer.optimize` (85-96). The callback is given the state after each iteration; the list
holds these states. `iterate` also sees `self.iter`. -/
def optLoop (iterate : Nat → S → Out S) (stopIter : Option Int) : Nat → Nat → S → List S → Out (S × Nat × List S)
  | 0, n, s, tr => .more (s, n, tr)
  | fuel + 1, n, s, tr =>
    match iterate n s with
    | .raised s' => .raised (s', n, tr)
    | .more s' => .more (s', n, tr)
    | .done s' stop =>
      let n := n + 1
      let tr := tr ++ [s']
      if reached stopIter n then .done (s', n, tr) stop
      else if stop then .done (s', n, tr) stop
      else optLoop iterate stopIter fuel n s' tr

/-- A number that is not `None` and not zero (76-79). -/
def truthy : Option Int → Option Int
  | none => none
  | some t => if t = 0 then none else some t

/-- The stopping iteration (74-83). -/
def stopIterOf (n : Nat) (iters maxIters : Option Int) : Option Int :=
  match truthy iters, truthy maxIters with
  | none, none => none
  | some a, none => some (n + a)
  | none, some b => some b
  | some a, some b => some (min (n + a) b)

/-- `GradientOptimizer.optimize` (57-96), where `n` is `self._iters`. -/
def optimize (iterate : Nat → S → Out S) (fuel : Nat) (iters maxIters : Option Int) (n : Nat) (s : S) :
    Out (S × Nat × List S) :=
  optLoop iterate (stopIterOf n iters maxIters) fuel n s []

/-! ### Gradient descent -/

/-- `GradientDescent.iterate` (125-141) without normalisation of the gradient. -/
def gdIterate (c : Prob P) (alpha : ℝ) (_ : Nat) (p : P) : Out P :=
  match c.grad p with
  | none => .raised p
  | some g =>
    match (c.m.encode p).bind (fun v => vzip (fun x y => x - alpha * y) v g) with
    | none => .raised p
    | some v =>
      match c.m.decode p v with
      | none => .raised p
      | some p1 =>
        match c.m.project p1 with
        | none => .raised p1
        | some p2 => .done p2 false

/-! ### AdaptiveGradientDescent -/

/-- The state of an `AdaptiveGradientDescent`. -/
structure Agd (P : Type) where
  param : P
  alpha : ℝ
  objVal : ℝ

/-- Its settings. -/
structure AgdCfg where
  success : ℝ
  failure : ℝ
  tol : ℝ

/-- `AdaptiveGradientDescent.__init__` (162-190). -/
def mkAgd (c : Prob P) (p : P) (alpha : ℝ) : Option (Agd P) := (c.obj p).map fun v => ⟨p, alpha, v⟩

/-- The loop of `AdaptiveGradientDescent.iterate` (205-227). -/
noncomputable def agdLoop (c : Prob P) (k : AgdCfg) (g : List ℝ) : Nat → Agd P → Out (Agd P)
  | 0, s => .more s
  | fuel + 1, s =>
    match c.m.encode s.param with
    | none => .raised s
    | some old =>
      match vzip (fun x y => x - s.alpha * y) old g with
      | none => .raised s
      | some new =>
        match c.m.decode s.param new with
        | none => .raised s
        | some p1 =>
          match c.m.project p1 with
          | none => .raised { s with param := p1 }
          | some p2 =>
            match c.obj p2 with
            | none => .raised { s with param := p2 }
            | some v =>
              if v ≤ s.objVal then .done ⟨p2, s.alpha * k.success, v⟩ false
              else
                match c.m.decode p2 old with
                | none => .raised ⟨p2, s.alpha * k.failure, s.objVal⟩
                | some p3 => agdLoop c k g fuel ⟨p3, s.alpha * k.failure, s.objVal⟩

/-- `gradient_norm < stop_tolerance` (202), without the square root. -/
noncomputable def normBelow (g : List ℝ) (tol : ℝ) : Bool :=
  open Classical in decide (0 < tol ∧ (g.map (fun x => x * x)).sum < tol * tol)

/-- `AdaptiveGradientDescent.iterate` (192-227). -/
noncomputable def agdIterate (c : Prob P) (k : AgdCfg) (fuel : Nat) (_ : Nat) (s : Agd P) : Out (Agd P) :=
  match c.grad s.param with
  | none => .raised s
  | some g => if normBelow g k.tol then .done s true else agdLoop c k g fuel s

/-! ### Adagrad, RmsProp, Adam, Nag -/

/-- `param.from_vector(param.to_vector() - step)`. -/
def takeStep (c : Prob P) (p : P) (step : List ℝ) : Option P :=
  ((c.m.toVector p).bind fun v => vzip (fun x y => x - y) v step).bind (c.m.fromVector p)

/-- The state of `Adagrad` and `RmsProp`: `acc` is `historical_gradient` or `grad_var`. -/
structure Acc1 (P : Type) where
  param : P
  acc : Option (List ℝ)

/-- `Adagrad.iterate` (253-266). After an exception the accumulated gradient may have changed; this is not modelled. -/
noncomputable def adagradIterate (c : Prob P) (alpha : ℝ) (_ : Nat) (s : Acc1 P) : Out (Acc1 P) :=
  match c.grad s.param with
  | none => .raised s
  | some g =>
    match accum 1 1 s.acc (g.map fun x => x * x) with
    | none => .raised s
    | some a =>
      match (vzip (fun x y => alpha * x / Real.sqrt (y + 1e-6)) g a).bind (takeStep c s.param) with
      | none => .raised s
      | some p => .done ⟨p, some a⟩ false

/-- `RmsProp.iterate` (292-306). -/
noncomputable def rmsIterate (c : Prob P) (alpha gamma : ℝ) (_ : Nat) (s : Acc1 P) : Out (Acc1 P) :=
  match c.grad s.param with
  | none => .raised s
  | some g =>
    match accum gamma (1 - gamma) s.acc (g.map fun x => x * x) with
    | none => .raised s
    | some a =>
      match (vzip (fun x y => alpha * x / Real.sqrt (y + 1e-6)) g a).bind (takeStep c s.param) with
      | none => .raised s
      | some p => .done ⟨p, some a⟩ false

/-- The state of `Adam`. -/
structure AdamS (P : Type) where
  param : P
  grad : Option (List ℝ)
  var : Option (List ℝ)

/-- `Adam.iterate` (336-356); `n` is `self.iter`. -/
noncomputable def adamIterate (c : Prob P) (alpha b1 b2 : ℝ) (n : Nat) (s : AdamS P) : Out (AdamS P) :=
  match c.grad s.param with
  | none => .raised s
  | some g =>
    match accum b1 (1 - b1) s.grad g, accum b2 (1 - b2) s.var (g.map fun x => x * x) with
    | some m, some v =>
      let mc := m.map (· / (1 - b1 ^ (n + 1)))
      let vc := v.map (· / (1 - b2 ^ (n + 1)))
      match (vzip (fun x y => alpha * x / (Real.sqrt y + 1e-8)) mc vc).bind (takeStep c s.param) with
      | none => .raised s
      | some p => .done ⟨p, some m, some v⟩ false
    | _, _ => .raised s

/-- `param.to_vector() - gamma * grad`, where `grad` is the number `0` (`none`) at the beginning (387). -/
def lookAhead (gamma : ℝ) (acc : Option (List ℝ)) (v : List ℝ) : Option (List ℝ) :=
  match acc with
  | none => some v
  | some a => vzip (fun x y => x - gamma * y) v a

/-- `Nag.iterate` (382-395). -/
def nagIterate (c : Prob P) (alpha gamma : ℝ) (_ : Nat) (s : Acc1 P) : Out (Acc1 P) :=
  match (c.m.toVector s.param) with
  | none => .raised s
  | some v =>
    match ((lookAhead gamma s.acc v).bind (c.m.fromVector s.param)).bind c.grad with
    | none => .raised s
    | some g =>
      match accum gamma alpha s.acc g with
      | none => .raised s
      | some a =>
        match takeStep c s.param a with
        | none => .raised { s with acc := some a }
        | some p => .done ⟨p, some a⟩ false

end
end Verif.Opt
