import Mathlib.Algebra.Order.Floor.Ring
import Mathlib.Algebra.Order.Field.Basic
import Mathlib.Algebra.Order.Group.Abs
/-
Model of `MultiEtchEdgeParametrization` and `PixelatedGrating`, spins/goos/grating.py.

Numbers are elements of an ordered field `K` (no rounding). Arrays along the grating direction are lists; the structure is the list
of its columns (one for each pixel along the grating, each a list along the etch direction), which is what
`flatten(order='F')` and `reshape(order='F')` carry around. The permutation of the axes of the result (`moveaxis`) is not modelled.
`none` is an exception.
-/
namespace Verif.Grating
variable {K : Type} [Field K] [LinearOrder K] [FloorRing K]

/-- `int(x)`: rounds towards zero -/
def pyInt (x : K) : Int := if 0 ≤ x then ⌊x⌋ else ⌈x⌉

/-- `vec[i] -= v`; an index outside raises. (Negative indices, which cannot occur after `project`, raise here.) -/
def subAt (vec : List K) (i : Int) (v : K) : Option (List K) :=
  if 0 ≤ i ∧ i < vec.length then some (vec.modify i.toNat fun a => a - v) else none

/-- `vec[a:b] = 0` (for `0 ≤ a`, `0 ≤ b`) -/
def zeroSlice (vec : List K) (a b : Int) : List K := vec.mapIdx fun q v => if a ≤ (q : Int) ∧ (q : Int) < b then 0 else v

/-- One turn of the loop over the holes. 402-417 -/
def holeStep (vec : List K) (a b : K) : Option (List K) :=
  let vec := zeroSlice vec (pyInt a + 1) (pyInt b)
  if pyInt a ≠ pyInt b then
    (subAt vec (pyInt a) (1 - (a - (pyInt a : K)))).bind fun vec => subAt vec (pyInt b) (b - (pyInt b : K))
  else subAt vec (pyInt a) (b - a)

/-- The loop over the holes; an odd number of edges raises. -/
def holes : List K → List K → Option (List K)
  | [], vec => some vec
  | [_], _ => none
  | a :: b :: l, vec => (holeStep vec a b).bind (holes l)

/-- `build_rasterized_1D`. 398-418 -/
def buildRaster (n : Nat) (vector : List K) : Option (List K) := holes vector (List.replicate n 1)

/-- One turn of the loop of `get_level_vecs`. 424-430; `range(min_level, max_level)` beyond the lists raises. -/
def levelStep (st : List (List K) × Nat) (x : K × Nat) : Option (List (List K) × Nat) :=
  if max x.2 st.2 ≤ st.1.length then
    some (st.1.mapIdx (fun k v => if min x.2 st.2 ≤ k ∧ k < max x.2 st.2 then v ++ [x.1] else v), x.2)
  else none

/-- `get_level_vecs`. 420-431. (`self.levels` shorter than the vector raises; longer is allowed.) -/
def levelVecs (numDepths : Nat) (vector : List K) (levels : List Nat) : Option (List (List K)) :=
  if vector.length ≤ levels.length then
    ((vector.zip levels).foldlM levelStep (List.replicate numDepths [], numDepths)).map fun st => st.1.reverse
  else none

/-- The variables of the loop of `get_structure`, for one column of `total_z`. -/
structure Col (K : Type) where
  z : List K
  zInd : Nat
  part : K

/-- `total_z[:, i] += v`, for one column -/
def addAt (z : List K) (i : Nat) (v : K) : Option (List K) := if i < z.length then some (z.modify i fun a => a + v) else none

/-- `np.diff(np.r_[0, self.etch_depths])`. 438 -/
def layerPixels (depths : List K) : List K := List.zipWith (· - ·) depths (0 :: depths)

/-- The threshold of 446, 456, 459 -/
def tiny : K := 1 / 1000

/-- The full pixels of a layer, and the start of its last pixel, when `left` pixels remain at `z_ind`. 450-457.
An assignment of `full_pixels` columns to fewer raises in numpy, except that a single one is broadcast to none. -/
def layerRest (r : K) (z : List K) (zInd : Nat) (left : K) : Option (Col K) :=
  let full := pyInt left
  let part := left - (full : K)
  let second : Option (List K × Nat) :=
    if 0 < full then
      if zInd + full.toNat ≤ z.length then
        some (z.mapIdx fun j v => if zInd ≤ j ∧ j < zInd + full.toNat then r else v, zInd + full.toNat)
      else if full = 1 then some (z, zInd + 1) else none
    else some (z, zInd)
  second.bind fun x =>
    if tiny < |part| then (addAt x.1 x.2 (r * part)).map fun z => ⟨z, x.2, part⟩ else some ⟨x.1, x.2, part⟩

/-- One turn of the loop of `get_structure` for one column: layer `i`, its thickness and the value `r` of the raster. 443-457 -/
def layerStep (s : Col K) (i : Nat) (pixels r : K) : Option (Col K) :=
  if i ≠ 0 ∧ tiny < |s.part| then
    (addAt s.z s.zInd (r * (1 - s.part))).bind fun z => layerRest r z (s.zInd + 1) (pixels - (1 - s.part))
  else layerRest r s.z s.zInd pixels

/-- The loop over the layers, from layer `i`. -/
def layers : Nat → List (K × K) → Col K → Option (Col K)
  | _, [], s => some s
  | i, (pixels, r) :: l, s => (layerStep s i pixels r).bind (layers (i + 1) l)

/-- The final layers of ones. 458-462 -/
def finish (s : Col K) : Option (List K) :=
  if tiny < |s.part| then
    (addAt s.z s.zInd (1 - s.part)).map fun z => z.mapIdx fun j v => if s.zInd + 1 ≤ j then 1 else v
  else some (s.z.mapIdx fun j v => if s.zInd ≤ j then 1 else v)

/-- One column of `total_z`: `rs` are the values of the rasters at this pixel. 438-463 -/
def column (D : Nat) (depths rs : List K) : Option (List K) :=
  (layers 0 ((layerPixels depths).zip rs) ⟨List.replicate D 0, 0, 0⟩).bind finish

/-- The state of a `MultiEtchEdgeParametrization`. 369-396 -/
structure MultiEtch (K : Type) where
  n : Nat
  D : Nat
  depths : List K
  vector : List K
  levels : List Nat

/-- `get_structure`: the columns. 433-463 -/
def MultiEtch.getStructure (p : MultiEtch K) : Option (List (List K)) :=
  (levelVecs p.depths.length p.vector p.levels).bind fun vecs =>
    (vecs.mapM (buildRaster p.n)).bind fun rasters =>
      (List.range p.n).mapM fun q => column p.D p.depths (rasters.map fun r => r.getD q 0)

/-- `project`. 468-470 -/
def MultiEtch.project (p : MultiEtch K) : MultiEtch K :=
  { p with vector := p.vector.map fun v => min (max v 0) ((p.n : K) - 1 / 100000) }

/-- `from_vector`: `decode` and `project`. 527-528, parametrization.py 93-96 -/
def MultiEtch.fromVector (p : MultiEtch K) (v : List K) : MultiEtch K := MultiEtch.project { p with vector := v }

/-- Entry of a structure. -/
def entryAt (s : List (List K)) (q z : Nat) : K := (s.getD q []).getD z 0

/-- The step of the finite differences. 505 -/
def fdEps : K := 1 / 100000

/-- `calculate_gradient`: column `i` of the matrix, as a function of the pixel. 503-522 -/
def MultiEtch.gradient (p : MultiEtch K) (i : Nat) : Option (Nat → Nat → K) :=
  ((p.fromVector (p.vector.set i (p.vector.getD i 0 + fdEps))).getStructure).bind fun dsf =>
    ((p.fromVector (p.vector.set i (p.vector.getD i 0 - fdEps))).getStructure).map fun dsb =>
      fun q z => (entryAt dsf q z - entryAt dsb q z) / (2 * fdEps)

/-- The parameters of a `PixelatedGrating`. 52-145; `polarity` tells whether `etch_polarity < 0`, `extent` is the extent along the
grating direction, `n` and `D` are `self._param_dims`. -/
structure PixGrating (K : Type) where
  n : Nat
  D : Nat
  heightFracs : List K
  pixelSize : K
  extent : K
  polarity : Bool
  useEdgeLocs : Bool

/-- `PixelatedGrating.__init__`: the check of `height_fracs`. 103-104 -/
def PixGrating.accepts (g : PixGrating K) : Bool :=
  (List.zipWith (fun a b => decide (b ≤ a)) (g.heightFracs.drop 1) g.heightFracs).all id

/-- `np.cumsum` -/
def cumsums (acc : K) : List K → List K
  | [] => []
  | a :: l => (acc + a) :: cumsums (acc + a) l

/-- The edges: `edge_locs` of `eval`. 148-151 -/
def PixGrating.edges (g : PixGrating K) (input : List K) : List K := if g.useEdgeLocs then input else cumsums 0 input

/-- `self._param` after `eval`: `etch_fracs = 1 - np.flip(height_fracs)`, first and last edge with the highest level.
139-145, 167-170 -/
def PixGrating.param (g : PixGrating K) (input : List K) (heightIndex : List Nat) : MultiEtch K :=
  MultiEtch.fromVector ⟨g.n, g.D, g.heightFracs.reverse.map fun h => (g.D : K) * (1 - h), [],
      [g.heightFracs.length] ++ heightIndex ++ [g.heightFracs.length]⟩
    (([0] ++ g.edges input ++ [g.extent]).map fun e => e / g.pixelSize)

/-- `PixelatedGrating.eval`: the columns. 147-185 -/
def PixGrating.eval (g : PixGrating K) (input : List K) (heightIndex : List Nat) : Option (List (List K)) :=
  (g.param input heightIndex).getStructure.map fun s => if g.polarity then s.map List.reverse else s

/-- `np.flip(np.cumsum(np.flip(grad)))`. 207 -/
def revCumsum (l : List K) : List K := (cumsums 0 l.reverse).reverse

/-- `grad.flatten(order="F") @ self._param.calculate_gradient()` for one edge. -/
def contract (n D : Nat) (grad : Nat → Nat → K) (J : Nat → Nat → K) : K :=
  ((List.range n).map fun q => ((List.range D).map fun z => grad q z * J q z).sum).sum

/-- `PixelatedGrating.grad`, with the state left by `eval`. 187-209 -/
def PixGrating.grad (g : PixGrating K) (input : List K) (heightIndex : List Nat) (gradVal : Nat → Nat → K) : Option (List K) :=
  let p := g.param input heightIndex
  let gr : Nat → Nat → K := fun q z => if g.polarity then gradVal q (g.D - 1 - z) else gradVal q z
  ((List.range p.vector.length).mapM fun i => (p.gradient i).map fun J => contract g.n g.D gr J / g.pixelSize).map fun l =>
    let l := (l.drop 1).dropLast
    if g.useEdgeLocs then l else revCumsum l

end Verif.Grating
