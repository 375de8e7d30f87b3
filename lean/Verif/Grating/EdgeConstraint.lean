import Verif.Grating.General
/-
Model of `EdgeLocConstraint` and `BarcodeGrating`, spins/goos/grating.py. Numbers are elements of an ordered field; the gradient is
a list of lists with numpy's rule for products of an array with a matrix.
-/
namespace Verif.Grating.General
variable {K : Type} [Field K]

/-- `min_feats - (vector[1:] - vector[:-1])`, with the feature of the level on the right of the edge; `none` for an index out of
range. 706-710 -/
def gapVals (minF : List K) : List K → List Nat → Option (List K)
  | a :: b :: v, l :: ls => (minF[l]?).bind fun f => (gapVals minF (b :: v) ls).map fun r => (f - (b - a)) :: r
  | [_], _ => some []
  | _, _ => none

/-- `EdgeLocConstraint.eval` with a list of features; one level per edge. 702-714 -/
def constraintEval (minF : List K) (len : K) (v : List K) (index : List Nat) : Option (List K) :=
  (gapVals minF v index).bind fun g => v.head?.bind fun a => v.getLast?.map fun z => g ++ [-a, z - len]

/-- The row of `-A`: `1` at `i` and `-1` at `i + 1`. 723-728 -/
def diffRow (n i : Nat) : List K := (List.range n).map fun j => if j = i then 1 else if j = i + 1 then -1 else 0

/-- `first` and `last`: `1` at `i`. 731-734 -/
def unitRow (n i : Nat) : List K := (List.range n).map fun j => if j = i then 1 else 0

/-- `self._diff_mat` for two edges or more; for one edge the rows have different lengths and `np.vstack` raises. 720-735 -/
def diffMat (n : Nat) : Option (List (List K)) :=
  if n < 2 then none else some (((List.range (n - 1)).map fun i => diffRow n i) ++ [unitRow n 0, unitRow n (n - 1)])

/-- `array * matrix` in numpy for an array with more than one entry and a matrix with `cols` columns: each row is multiplied
entrywise; different lengths raise (a matrix with one column does not arise). -/
def starMat (g : List K) (m : List (List K)) (cols : Nat) : Option (List (List K)) :=
  if g.length = cols then some (m.map fun r => List.zipWith (· * ·) g r) else none

/-- `EdgeLocConstraint.grad`: `grad_val.array_grad * self._diff_mat`. 716-739 -/
def constraintGrad (v : List K) (g : List K) : Option (List (List K)) :=
  (diffMat (K := K) v.length).bind fun m => starMat g m v.length

/-- A bar: its centre and its width along the grating, and its extent along the etch direction. -/
structure Bar (K : Type) where
  pos : K
  width : K
  height : K

/-- The loop of `BarcodeGrating.eval` over `zip(edge_locs[:-1], edge_locs[1:], heights)`. 769-780 -/
def bars (pos extent etchExtent : K) : List K → List K → List (Bar K)
  | a :: b :: v, h :: hs => ⟨pos - extent / 2 + (a + b) / 2, b - a, etchExtent * h⟩ :: bars pos extent etchExtent (b :: v) hs
  | _, _ => []

/-- `BarcodeGrating.eval`; a single height is used for all bars. 763-781 -/
def barcode (pos extent etchExtent : K) (edges heights : List K) : List (Bar K) :=
  let e := edges.map (· * extent)
  let h := match heights with
    | [a] => List.replicate edges.length a
    | _ => heights
  bars pos extent etchExtent e h

end Verif.Grating.General
