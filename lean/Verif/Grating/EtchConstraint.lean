import Verif.Grating.MultiEtch
import Mathlib.Algebra.BigOperators.Group.Finset.Basic
/-
Model of `MultiEtchEdgeParametrization.build_constraints` and `get_bounds`, spins/goos/grating.py 465-501. Matrices are lists of rows;
`none` is an exception. Numbers are elements of an ordered field (no rounding).
-/
namespace Verif.Grating.EtchConstraint
variable {K : Type} [Field K] [LinearOrder K] [FloorRing K]

/-- `scipy.linalg.circulant`: entry `(i, j)` is `c[(i - j) mod n]`. -/
def circulant (c : List K) : List (List K) :=
  (List.range c.length).map fun i => (List.range c.length).map fun j => c.getD ((i + c.length - j) % c.length) 0

/-- `.T` of a square matrix. -/
def transpose (a : List (List K)) : List (List K) :=
  (List.range a.length).map fun i => (List.range a.length).map fun j => (a.getD j []).getD i 0

/-- `A`: the matrix of differences (475-478). The list `[0] * k` is empty for a negative `k`. -/
def diffMatrix (len : Nat) : List (List K) := (transpose (circulant ([-1, 1] ++ List.replicate (len - 2) 0))).dropLast

/-- `row @ x`. -/
def dot (r x : List K) : K := (List.zipWith (· * ·) r x).sum

/-- `A @ x`; raises unless the columns of `A` are as many as the entries of `x`. -/
def matVec (a : List (List K)) (x : List K) : Option (List K) :=
  if ∀ r ∈ a, r.length = x.length then some (a.map fun r => dot r x) else none

/-- `np.identity(n)`. -/
def identity (n : Nat) : List (List K) := (List.range n).map fun i => (List.range n).map fun j => if i = j then 1 else 0

/-- A constraint for scipy: `fun` and `jac`, with the type 'ineq'. -/
structure Con (K : Type) where
  fn : List K → Option (List K)
  jac : List K → List (List K)

/-- `build_constraints` (472-501). The matrices are made for the vector stored; `fun` of the first raises for vectors of another length. -/
def buildConstraints (p : MultiEtch K) (minFeature : K) : List (Con K) :=
  let a := diffMatrix p.vector.length
  let ident := identity p.vector.length
  [⟨fun x => (matVec a x).map fun d => d.map fun v => v - minFeature, fun _ => a⟩,
   ⟨fun x => some x, fun _ => ident⟩,
   ⟨fun x => some (x.map fun v => (p.n : K) - v), fun _ => ident.map fun r => r.map fun v => -v⟩]

/-- `get_bounds` (465-466): always `None`, whatever `lower_bound`, `upper_bound` and `bounds` the parametrization was made with. -/
def getBounds (_ : MultiEtch K) (_lower _upper : List K) : Option (List K × List K) := none

end Verif.Grating.EtchConstraint
