import Verif.Plan.Scipy
/-
The optimizer of `spins.invdes`: `spins/invdes/optimization/scipy_optimizer.py` (49-145), called by
`spins/invdes/problem_graph/creator_opt.py` (58-171).

`P` is the state of the parametrization, `F` the type of functions of a parametrization, `R` the
numbers. Vectors are lists. scipy is any client (`Verif.Plan.Client`): it asks for values and
gradients at vectors of its choice, calls the callback, and ends.
-/
namespace Verif.Plan.Inv
variable {P R F : Type}
open Verif.Plan

/-- What the code calls on a parametrization and on functions of it: `from_vector` (parametrization.py
94-97, `none`: an exception), `to_vector` (77-92), `get_bounds` (58-65, `none`: `None`),
`calculate_objective_function` and `calculate_gradient` of a function (`none`: an exception). -/
structure World (P R F : Type) where
  fromVec : P → List R → Option P
  toVec : P → List R
  bounds : P → Option (List (Option R) × List (Option R))
  val : F → P → Option (List R)
  grd : F → P → Option (List R)

/-- The problem `opt` (`OptimizationProblem`). -/
structure Problem (F : Type) where
  obj : F
  consEq : List F
  consIneq : List F

/-- The fields of the optimizer object (16-47). The field `constraints` (further scipy constraints
given by hand, 120-121) is left out: it is empty in every call in the repository. -/
structure Settings (R : Type) where
  method : String
  options : List (String × R)
  tol : Option R
  bounds : Option (List (Option R × Option R))

/-- `__init__` (16-47): `tol` is moved out of the options. -/
def Settings.init (method : String) (tol : Option R) (options : List (String × R))
    (bounds : Option (List (Option R × Option R))) : Settings R :=
  match options.find? (fun e => e.1 = "tol") with
  | some e => ⟨method, options.filter (fun e => e.1 ≠ "tol"), some e.2, bounds⟩
  | none => ⟨method, options, tol, bounds⟩

/-- The arguments of `scipy.optimize.minimize` (126-135) apart from the functions: whether a
Jacobian is given, bounds, and the kinds of the constraints (`none`: no constraints given). -/
structure Handed (R : Type) where
  x0 : List R
  jac : Bool
  tol : Option R
  method : String
  options : List (String × R)
  cons : Option (List Closure)
  bounds : Option (List (Option R × Option R))

/-- 63-69. -/
def needsJacobian (m : String) : Bool :=
  ["CG", "BFGS", "L-BFGS-B", "TNC", "SLSQP", "dogleg", "trust-ncg"].contains m

/-- 71-74. -/
def acceptsBounds (m : String) : Bool := ["L-BFGS-B", "TNC", "SLSQP"].contains m

/-- 84-86. -/
def acceptsConstraints (m : String) : Bool := ["SLSQP", "COBYLA"].contains m

/-- `bounds` (73-81). A tuple of two arrays is true for `if bounds`. -/
def boundsFor (w : World P R F) (s : Settings R) (p : P) : Option (List (Option R × Option R)) :=
  if acceptsBounds s.method then
    match s.bounds with
    | some b => some b
    | none =>
      match w.bounds p with
      | some (lo, hi) => some (lo.zip hi)
      | none => none
  else none

/-- What scipy is given (63-135). -/
def handed (w : World P R F) (s : Settings R) (pr : Problem F) (p : P) : Handed R where
  x0 := w.toVec p
  jac := needsJacobian s.method
  tol := s.tol
  method := s.method
  options := s.options
  cons := if acceptsConstraints s.method then some (buildConstraints pr.consEq pr.consIneq).2
    else none
  bounds := boundsFor w s p

/-- The functions given to scipy, on the parametrization after `from_vector` (55-61, 88-118). A
function that was not given cannot be called: `none`. -/
def answer [Neg R] (w : World P R F) (s : Settings R) (pr : Problem F) (q : Query) (p : P) :
    Option (List R) :=
  match q with
  | .fun_ => w.val pr.obj p
  | .jac => if needsJacobian s.method then w.grd pr.obj p else none
  | .con i =>
    if acceptsConstraints s.method then
      match (buildConstraints pr.consEq pr.consIneq).2[i]?.bind
          (Closure.target (buildConstraints pr.consEq pr.consIneq).1) with
      | none => none
      | some (f, b) => (w.val f p).map (negIf b)
    else none
  | .conJac i =>
    if acceptsConstraints s.method then
      match (buildConstraints pr.consEq pr.consIneq).2[i]?.bind
          (Closure.target (buildConstraints pr.consEq pr.consIneq).1) with
      | none => none
      | some (f, b) => (w.grd f p).map (negIf b)
    else none

/-- What a run leaves: the parametrization, the logged pairs (iteration, parametrization), and
whether an exception left it. -/
structure End (P : Type) where
  param : P
  log : List (Nat × P)
  raised : Bool
deriving DecidableEq

/-- The run of `minimize` and the assignment after it (126-136) with the callback of
creator_opt.py (124-139): it gets the current iterate as argument and does not look at it, counts,
and logs `param`. `cb` tells whether a callback is given (creator_opt.py 151-154). After an
exception of `from_vector` the parametrization is taken to be unchanged. -/
def serve [Neg R] (w : World P R F) (s : Settings R) (pr : Problem F) (cb : Bool) :
    Client R → Nat → P → List (Nat × P) → End P
  | .raise, _, p, lg => ⟨p, lg, true⟩
  | .finish x, _, p, lg =>
    match w.fromVec p x with
    | none => ⟨p, lg, true⟩
    | some p' => ⟨p', lg, false⟩
  | .call q x k, it, p, lg =>
    match w.fromVec p x with
    | none => ⟨p, lg, true⟩
    | some p' =>
      match answer w s pr q p' with
      | none => ⟨p', lg, true⟩
      | some r => serve w s pr cb (k r) it p' lg
  | .callback _ k, it, p, lg =>
    if cb then serve w s pr cb k (it + 1) p (lg ++ [(it + 1, p)])
    else serve w s pr cb k it p lg

/-- `__call__` (49-137) with the callback of `_iterate` (creator_opt.py 111-154); `scipy` is the
library. `it` is the iteration to resume from. -/
def optimize [Neg R] (w : World P R F) (s : Settings R) (pr : Problem F) (cb : Bool)
    (scipy : Handed R → Client R) (it : Nat) (p : P) : End P :=
  serve w s pr cb (scipy (handed w s pr p)) it p []

end Verif.Plan.Inv
