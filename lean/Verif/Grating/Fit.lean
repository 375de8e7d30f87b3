import Mathlib.Algebra.Order.Floor.Semiring
import Mathlib.Algebra.Order.Field.Basic
/-
Model of the discretisation of a continuous grating, spins/invdes/problem_graph/grating.py.

Numbers are elements of an ordered field `K` (no rounding). List indices that Python checks are total here (`getD`): for
`d ≥ 1` all of them are in range (`i ≤ k - 2d`, `j = i + d`, `k ≤ 5 len(x)`), and `GratingEdgeDiscretization` only calls
with `d ≥ 5`.
-/
namespace Verif.Grating
variable {K : Type} [Field K] [LinearOrder K]

/-- `func`. grating.py 109 -/
def sqd (a b : K) : K := (a - b) ^ 2

/-- `np.cumsum` started from `acc` -/
def cumsumFrom (acc : K) : List K → List K
  | [] => []
  | a :: l => (acc + a) :: cumsumFrom (acc + a) l

/-- `zero_value` (with `b = 0`) and `one_value` (with `b = 1`): `[0] + np.cumsum(func(x, b)).tolist()`. 119-122 -/
def flatValue (x : List K) (b : K) : List K := 0 :: cumsumFrom 0 (x.map fun a => sqd a b)

/-- `(k % divisions) / divisions`, `divisions = 5`. 114, 133 -/
def frac (k : Nat) : K := ((k % 5 : Nat) : K) / 5

/-- The variables of the inner loop. -/
structure Inner (K : Type) where
  val : K
  newEdges : List K
  bestI : Nat
  jValue : K
  bestJ : Int

/-- One turn of the inner loop (`i` is the previous right edge). 145-167 -/
def innerStep (x dp : List K) (d k : Nat) (s : Inner K) (i : Nat) : Inner K :=
  let base := sqd (x.getD (i / 5) 0) (1 - frac i) * (1 - frac i) - (flatValue x 1).getD (i / 5 + 1) 0 +
    (flatValue x 0).getD (k / 5) 0
  let base := if k / 5 < x.length then base + sqd (x.getD (k / 5) 0) (1 - frac k) * frac k else base
  let newJ := (flatValue x 1).getD ((i + d) / 5) 0 + sqd (x.getD ((i + d) / 5) 0) (frac (i + d)) -
    (flatValue x 0).getD ((i + d) / 5 + 1) 0
  let s := if newJ < s.jValue then { s with jValue := newJ, bestJ := ((i + d : Nat) : Int) } else s
  let newValue := s.jValue + base
  if dp.getD i 0 + newValue < s.val then
    { s with val := dp.getD i 0 + newValue, newEdges := [(s.bestJ : K) / 5, (k : K) / 5], bestI := i }
  else s

/-- The values at the start of the inner loop. 134-143 -/
def innerInit (x : List K) (k : Nat) : Inner K where
  val := if k / 5 < x.length then (flatValue x 0).getD (k / 5) 0 + sqd (x.getD (k / 5) 0) (1 - frac k) * frac k
    else (x.length : K)
  newEdges := [0, (k : K) / 5]
  bestI := 0
  jValue := (x.length : K)
  bestJ := -1

/-- One turn of the outer loop (`k` is this right edge) on `dp` and `struct_dp`. 131-169 -/
def outerStep (x : List K) (d : Nat) (st : List K × List (List K)) (k : Nat) : List K × List (List K) :=
  let s := (List.range (k + 1 - 2 * d)).reverse.foldl (innerStep x st.1 d k) (innerInit x k)
  (st.1.set k s.val, st.2 ++ [st.2.getD s.bestI [] ++ s.newEdges])

/-- The loops that fill `dp` and `struct_dp`. 123-169 -/
def fillDp (x : List K) (d : Nat) : List K × List (List K) :=
  (List.range' d (5 * x.length + 1 - d)).foldl (outerStep x d)
    ((List.replicate (5 * x.length + 1) (x.length : K)).set 0 0, List.replicate d [])

/-- One turn of the backfill loop. 172-176 -/
def backfillStep (x : List K) (dp : List K) (k : Nat) : List K :=
  dp.set k (dp.getD k 0 + ((flatValue x 1).getD x.length 0 - (flatValue x 1).getD (k / 5 + 1) 0 +
    sqd (x.getD (k / 5) 0) (1 - frac k) * (1 - frac k)))

/-- `np.argmin` of a list that starts with `best` at index `bi`; `i` is the index of the rest. -/
def argminGo (best : K) (bi i : Nat) : List K → Nat
  | [] => bi
  | a :: l => if a < best then argminGo a i (i + 1) l else argminGo best bi (i + 1) l

/-- `np.argmin`; it raises on an empty array -/
def argmin : List K → Option Nat
  | [] => none
  | a :: l => some (argminGo a 0 1 l)

/-- `_get_edge_loc_dp` for the feature size `d` in fifths of a pixel. 111-181 -/
def edgeLocDp (x : List K) (d : Nat) : Option (List K) :=
  let st := fillDp x d
  let dp := (List.range' d (5 * x.length - d)).foldl (backfillStep x) st.1
  (argmin (dp.drop d)).map fun i => st.2.getD (i + d) []

/-- `_get_edge_loc_dp`: `d = int(min_feature * divisions)`. 76-181 -/
def getEdgeLoc [FloorSemiring K] (x : List K) (minFeature : K) : Option (List K) := edgeLocDp x ⌊minFeature * 5⌋₊

/-- The post-processing of `GratingEdgeDiscretization.__call__`: the edges given to the `GratingParam`. 52-61 -/
def postProcess (n : Nat) (edges : List K) : List K :=
  let e1 := if edges.head? = some 0 then edges.tail else 0 :: edges
  if e1.getLast? = some (n : K) then e1.dropLast else e1 ++ [(n : K)]

/-- `GratingEdgeDiscretization.__init__` and `__call__`: the vector given to `GratingParam.from_vector`. 29-33, 44-63 -/
def discretize [FloorSemiring K] (x : List K) (minFeature dx : K) : Option (List K) :=
  if minFeature / dx < 1 then none else (getEdgeLoc x (minFeature / dx)).map (postProcess x.length)

end Verif.Grating
