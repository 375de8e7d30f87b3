import Mathlib.Algebra.Field.Basic
import Mathlib.Algebra.BigOperators.Group.List.Basic
import Mathlib.Algebra.Order.Field.Basic

/-!
# Feature constraints of grating parametrizations

`GratingFeatureConstraint` (spins/invdes/problem/grating.py).  Arrays are lists
and matrices are lists of rows; an operation on shapes that do not fit is `none`.
Numbers are elements of an ordered field, without rounding.
-/

namespace Verif.Grating.Feature

variable {K : Type*} [Field K] [LinearOrder K]

/-- `scipy.linalg.circulant(c).T`: entry `(i, j)` is `c[(j - i) mod n]`. -/
def circulantT (c : List K) : List (List K) :=
  (List.range c.length).map fun i =>
    (List.range c.length).map fun j => c.getD ((j + c.length - i) % c.length) 0

/-- `_diff_matrix` (problem/grating.py 11-22). `[0] * (vec_len - 2)` is empty for a
negative count. -/
def diffMatrix (vecLen : Nat) : List (List K) :=
  (circulantT ([-1, 1] ++ List.replicate (vecLen - 2) 0)).dropLast

/-- The product of a row with a vector of the same length. -/
def dot (r v : List K) : K := (List.zipWith (· * ·) r v).sum

/-- `matrix @ vector`; `none` for the error if the lengths differ. -/
def matVec (m : List (List K)) (v : List K) : Option (List K) :=
  if m.all (fun r => r.length == v.length) then some (m.map fun r => dot r v) else none

/-- `_build_constraints` (problem/grating.py 93-118), stacked by the `np.hstack` of
line 73. -/
def buildConstraints (minF scale : K) (vec : List K) (len : K) : Option (List K) :=
  (matVec (diffMatrix vec.length) vec).bind fun d =>
    vec.head?.bind fun a => vec.getLast?.map fun z =>
      (d.map fun x => -(x - minF)) ++ [-a + scale * minF, -len + scale * minF + z]

/-- A zero vector with one entry set (problem/grating.py 136-137, 140-141). -/
def unitRow (n i : Nat) (x : K) : List K := (List.range n).map fun j => if j = i then x else 0

/-- `_build_constraint_grads` (problem/grating.py 120-144); `none` for the error of
`np.vstack` or of the assignment to an entry of an empty vector. -/
def buildGrads (n : Nat) : Option (List (List K)) :=
  if n = 0 then none
  else
    let m := (diffMatrix n).map fun r => r.map fun x => -x
    if m.all (fun r => r.length == n) then
      some (m ++ [unitRow n 0 (-1), unitRow n (n - 1) 1])
    else none

/-- A `GratingParam`, as far as it matters here: its vector of edges and its number
of pixels. -/
structure EdgeParam (K : Type*) where
  vec : List K
  len : K

/-- Concatenation of optional lists, where one error is an error. -/
def allSome {α : Type*} : List (Option (List α)) → Option (List α)
  | [] => some []
  | x :: xs => x.bind fun a => (allSome xs).map fun b => a ++ b

/-- `calculate_objective_function` for a `CompositeParam` (problem/grating.py 60-73);
a single grating is the case of one part.  `np.hstack` of an empty list is an
error. -/
def evalConstraint (minF scale : K) (ps : List (EdgeParam K)) : Option (List K) :=
  if ps.isEmpty then none
  else allSome (ps.map fun p => buildConstraints minF scale p.vec p.len)

/-- `scipy.linalg.block_diag`: each block is padded by the columns of the blocks
before and after it. -/
def blockDiag (left : Nat) : List (List (List K) × Nat) → List (List K)
  | [] => []
  | (b, n) :: rest =>
    (b.map fun r => List.replicate left 0 ++ r ++ List.replicate ((rest.map (·.2)).sum) 0)
      ++ blockDiag (left + n) rest

/-- `calculate_gradient` (problem/grating.py 75-91). -/
def gradConstraint (ps : List (EdgeParam K)) : Option (List (List K)) :=
  (ps.mapM fun p => (buildGrads (K := K) p.vec.length).map fun b => (b, p.vec.length)).map
    (blockDiag 0)

/-- `GratingFeatureConstraint.__init__` (problem/grating.py 43-58). -/
def accepts (minF : K) : Bool := !(decide (minF < 0))

end Verif.Grating.Feature
