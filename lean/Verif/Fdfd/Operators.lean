import Verif.Fdfd.Vec
import Mathlib.Data.Complex.Basic
import Mathlib.Analysis.Complex.Exponential
import Mathlib.Analysis.SpecialFunctions.Pow.Complex
import Mathlib.LinearAlgebra.Matrix.ConjTranspose
import Mathlib.Data.Matrix.Block
/-
Model of `spins/fdfd_tools/operators.py`. Numbers are exact complex numbers (floating point is not
modelled). A sparse matrix is the matrix it denotes. A vectorised field of length `3 * n` is
indexed by `(component, position)`; entry `(c, i)` is at the flat position `c * n + i`, so that
`np.split(f, 3)` is the first index and `sparse.bmat` of three by three blocks is the matrix below.
-/
namespace Verif.Fdfd
open Matrix

/-- Number of cells along x, y and z. -/
abbrev Shape := Fin 3 → Nat

def Shape.toList (sh : Shape) : List Nat := [sh 0, sh 1, sh 2]

/-- `n = np.prod(shape)`. -/
def Shape.size (sh : Shape) : Nat := numel sh.toList

abbrev Mat (n : Nat) := Matrix (Fin n) (Fin n) ℂ
abbrev Mat3 (n : Nat) := Matrix (Fin 3 × Fin n) (Fin 3 × Fin n) ℂ
/-- A vectorised field (see the header). -/
abbrev VField (n : Nat) := Fin 3 × Fin n → ℂ

/-- `sparse.csr_matrix((data, (row, col)), shape=(n, n))`: entries at the same place are added. The
inferred shape at `operators.py` 653 is `(n, n)`, as every row and column index occurs. -/
def csr (n : Nat) (l : List (ℂ × Nat × Nat)) : Mat n :=
  fun i j => (l.map (fun t => if t.2.1 = i.val ∧ t.2.2 = j.val then t.1 else 0)).sum

/-- `sparse.diags(v)` for a vector of length `n`. -/
def diags (n : Nat) (v : List ℂ) : Mat n := Matrix.diagonal (fun i => v.getD i.val 0)

/-- `sparse.bmat` of three by three square blocks. -/
def bmat {n : Nat} (B : Fin 3 → Fin 3 → Mat n) : Mat3 n := fun p q => B p.1 q.1 p.2 q.2

/-- `np.meshgrid(*dx, indexing='ij')[a].flatten(order='F')` (e.g. 684, 692). Only the entries
`dx a i` with `i < sh a` matter. -/
def meshFlat (sh : Shape) (dx : Fin 3 → Nat → ℂ) (a : Fin 3) : List ℂ :=
  flattenF sh.toList (fun idx => dx a (idx.getD a.val 0))

/-- One masked statement `ind[b][mask] += v` of `rotation_bloch_shift` at one cell. -/
def maskedAdd (mask : Bool) (b : Fin 3) (v : Int) (ind : Fin 3 → Int) : Fin 3 → Int :=
  if mask then Function.update ind b (ind b + v) else ind

/-- The index grids of `rotation_bloch_shift` after the shifts, at the cell `c` (624-639).
Simplification: the orthogonal shifts are integers, `int()` being the identity. -/
def rotInd (sh : Shape) (axis : Fin 3) (s : Int) (so : Fin 3 → Int) (c : List Nat) : Fin 3 → Int :=
  let ind : Fin 3 → Int := fun a => ((c.getD a.val 0 : Nat) : Int)
  let ind := Function.update ind axis (ind axis + s)
  let ind := maskedAdd (decide ((sh axis : Int) ≤ ind axis)) 0 (so 0) ind
  let ind := maskedAdd (decide ((sh axis : Int) ≤ ind axis)) 1 (so 1) ind
  let ind := maskedAdd (decide ((sh axis : Int) ≤ ind axis)) 2 (so 2) ind
  let ind := maskedAdd (decide (ind axis < 0)) 0 (-so 0) ind
  let ind := maskedAdd (decide (ind axis < 0)) 1 (-so 1) ind
  let ind := maskedAdd (decide (ind axis < 0)) 2 (-so 2) ind
  ind

/-- The data of `rotation_bloch_shift` at one cell (641-645). -/
noncomputable def rotData (sh : Shape) (phase : Fin 3 → ℂ) (ind : Fin 3 → Int) : ℂ :=
  ([0, 1, 2] : List (Fin 3)).foldl (fun d a =>
    let d := if (sh a : Int) ≤ ind a then d * Complex.exp (-Complex.I * phase a) else d
    if ind a < 0 then d * Complex.exp (-Complex.I * (-phase a)) else d) 1

/-- The multi-index after `mode='wrap'` (651-652). -/
def wrapIdx (sh : Shape) (ind : Fin 3 → Int) : List Nat :=
  [(ind 0 % (sh 0 : Int)).toNat, (ind 1 % (sh 1 : Int)).toNat, (ind 2 % (sh 2 : Int)).toNat]

/-- `rotation_bloch_shift` (603-654); `none` is the exception of 621-622. -/
noncomputable def rotationBlochShift (axis : Fin 3) (sh : Shape) (s : Int) (phase : Fin 3 → ℂ)
    (so : Fin 3 → Int) : Option (Mat sh.size) :=
  if so axis ≠ 0 then none
  else some (csr sh.size ((idxF sh.toList).map (fun c =>
    let ind := rotInd sh axis s so c
    (rotData sh phase ind, ravelF sh.toList c, ravelF sh.toList (wrapIdx sh ind)))))

/-- The phases of `deriv_forward_shift` and `deriv_back_shift` (679-683, 715-719):
`(diag(L_sim) - shift_orthogonal @ diag(dx_0)) @ bloch_vec`. -/
noncomputable def blochPhase (sh : Shape) (dx : Fin 3 → Nat → ℂ) (k : Fin 3 → ℂ)
    (so : Fin 3 → Fin 3 → Int) : Fin 3 → ℂ := fun a =>
  ([0, 1, 2] : List (Fin 3)).foldl (fun acc b => acc +
    ((if a = b then ((List.range (sh a)).map (dx a)).sum else 0) - (so a b : ℂ) * dx b 0) * k b) 0

/-- Runs `f` on the three axes; an exception in one is an exception of the list comprehension. -/
def forAxes {α : Type} (f : Fin 3 → Option α) : Option (Fin 3 → α) :=
  (f 0).bind fun a => (f 1).bind fun b => (f 2).map fun c => ![a, b, c]

/-- `deriv_forward_shift` (657-691). A grid with no cells along an axis (`dx[0]` raises) is not
modelled. -/
noncomputable def derivForwardShift (sh : Shape) (dx : Fin 3 → Nat → ℂ) (k : Fin 3 → ℂ)
    (so : Fin 3 → Fin 3 → Int) : Option (Fin 3 → Mat sh.size) :=
  let phase := blochPhase sh dx k so
  forAxes fun a => (rotationBlochShift a sh 1 phase (so a)).map fun r =>
    diags sh.size ((meshFlat sh dx a).map (fun x => 1 / x)) * (r - 1)

/-- `deriv_back_shift` (694-728). -/
noncomputable def derivBackShift (sh : Shape) (dx : Fin 3 → Nat → ℂ) (k : Fin 3 → ℂ)
    (so : Fin 3 → Fin 3 → Int) : Option (Fin 3 → Mat sh.size) :=
  let phase := blochPhase sh dx k so
  forAxes fun a => (rotationBlochShift a sh (-1) phase (so a)).map fun r =>
    diags sh.size ((meshFlat sh dx a).map (fun x => -1 / x)) * (r - 1)

/-- `cross` (417-428). -/
def cross {n : Nat} (B : Fin 3 → Mat n) : Mat3 n :=
  bmat ![![0, -B 2, B 1], ![B 2, 0, -B 0], ![-B 1, B 0, 0]]

/-- `vec_cross` (431-447) for a vectorised field. The branch for two-dimensional arrays is not
modelled. -/
def vecCross {n : Nat} (b : VField n) : Mat3 n :=
  cross (fun c => Matrix.diagonal (fun i => b (c, i)))

/-- The cell widths `dxes = [dx_e, dx_h]`. -/
structure Dxes where
  e : Fin 3 → Nat → ℂ
  h : Fin 3 → Nat → ℂ

/-- `curl_h` (241-257). -/
noncomputable def curlH (sh : Shape) (d : Dxes) (k : Fin 3 → ℂ) (so : Fin 3 → Fin 3 → Int) :
    Option (Mat3 sh.size) := (derivBackShift sh d.h k so).map cross

/-- `curl_e` (260-276). -/
noncomputable def curlE (sh : Shape) (d : Dxes) (k : Fin 3 → ℂ) (so : Fin 3 → Fin 3 → Int) :
    Option (Mat3 sh.size) := (derivForwardShift sh d.e k so).map cross

/-- The `pe` and `pm` of 76-84: the identity without a mask, else `diags(where(mask, 0, 1))`. -/
def maskMat {n : Nat} : Option (Fin 3 × Fin n → Bool) → Mat3 n
  | none => 1
  | some m => Matrix.diagonal (fun p => if m p then 0 else 1)

/-- `m_div` (87-90). -/
noncomputable def invMat {n : Nat} : Option (VField n) → Mat3 n
  | none => 1
  | some v => Matrix.diagonal (fun p => 1 / v p)

/-- `m` of `h_full` (174-177). -/
def valMat {n : Nat} : Option (VField n) → Mat3 n
  | none => 1
  | some v => Matrix.diagonal v

/-- `e_full` (44-98). -/
noncomputable def eFull (sh : Shape) (omega : ℂ) (d : Dxes) (epsilon : VField sh.size)
    (mu : Option (VField sh.size)) (pec pmc : Option (Fin 3 × Fin sh.size → Bool))
    (k : Fin 3 → ℂ) (so : Fin 3 → Fin 3 → Int) : Option (Mat3 sh.size) :=
  (curlE sh d k so).bind fun ce => (curlH sh d k so).map fun ch =>
    let pe := maskMat pec
    let pm := maskMat pmc
    let e : Mat3 sh.size := Matrix.diagonal epsilon
    pe * (ch * pm * invMat mu * ce - omega ^ 2 • e) * pe

/-- `h_full` (128-180). -/
noncomputable def hFull (sh : Shape) (omega : ℂ) (d : Dxes) (epsilon : VField sh.size)
    (mu : Option (VField sh.size)) (pec pmc : Option (Fin 3 × Fin sh.size → Bool))
    (k : Fin 3 → ℂ) (so : Fin 3 → Fin 3 → Int) : Option (Mat3 sh.size) :=
  (curlE sh d k so).bind fun ec => (curlH sh d k so).map fun hc =>
    let pe := maskMat pec
    let pm := maskMat pmc
    pm * (ec * pe * invMat (some epsilon) * hc - omega ^ 2 • valMat mu) * pm

/-- `eh_full` (183-238). Without `mu`, `pm @ iwm @ pm` multiplies sparse matrices with `@` by a
scalar, which raises (230-233). -/
noncomputable def ehFull (sh : Shape) (omega : ℂ) (d : Dxes) (epsilon : VField sh.size)
    (mu : Option (VField sh.size)) (pec pmc : Option (Fin 3 × Fin sh.size → Bool))
    (k : Fin 3 → ℂ) (so : Fin 3 → Fin 3 → Int) :
    Option (Matrix ((Fin 3 × Fin sh.size) ⊕ (Fin 3 × Fin sh.size))
      ((Fin 3 × Fin sh.size) ⊕ (Fin 3 × Fin sh.size)) ℂ) :=
  let pe : Mat3 sh.size := maskMat pec
  let pm : Mat3 sh.size := maskMat pmc
  let iwe := pe * ((Complex.I * omega) • (Matrix.diagonal epsilon : Mat3 sh.size)) * pe
  mu.bind fun m =>
    let iwm := pm * ((Complex.I * omega) • (Matrix.diagonal m : Mat3 sh.size)) * pm
    (curlH sh d k so).bind fun ch => (curlE sh d k so).map fun ce =>
      Matrix.fromBlocks (-iwe) (pe * ch * pm) (pm * ce * pe) iwm

/-- `e2h` (279-312). -/
noncomputable def e2h (sh : Shape) (omega : ℂ) (d : Dxes) (mu : Option (VField sh.size))
    (pmc : Option (Fin 3 × Fin sh.size → Bool)) (k : Fin 3 → ℂ) (so : Fin 3 → Fin 3 → Int) :
    Option (Mat3 sh.size) :=
  (curlE sh d k so).map fun ce =>
    let op := (1 / (-Complex.I * omega)) • ce
    let op := match mu with
      | none => op
      | some m => (Matrix.diagonal (fun p => 1 / m p) : Mat3 sh.size) * op
    match pmc with
    | none => op
    | some m => (Matrix.diagonal (fun p => if m p then 0 else 1) : Mat3 sh.size) * op

/-- `h2e` (315-346); `pmc` is ignored. -/
noncomputable def h2e (sh : Shape) (omega : ℂ) (d : Dxes) (eps : VField sh.size)
    (k : Fin 3 → ℂ) (so : Fin 3 → Fin 3 → Int) : Option (Mat3 sh.size) :=
  (curlH sh d k so).map fun ch =>
    (Matrix.diagonal (fun p => 1 / (Complex.I * omega * eps p)) : Mat3 sh.size) * ch

/-- `m2j` (349-372). -/
noncomputable def m2j (sh : Shape) (omega : ℂ) (d : Dxes) (mu : Option (VField sh.size))
    (k : Fin 3 → ℂ) (so : Fin 3 → Fin 3 → Int) : Option (Mat3 sh.size) :=
  (curlH sh d k so).map fun ch =>
    let op := (1 / (Complex.I * omega)) • ch
    match mu with
    | none => op
    | some m => op * (Matrix.diagonal (fun p => 1 / m p) : Mat3 sh.size)

/-- `np.sqrt` on complex numbers (principal branch). -/
noncomputable def npSqrt (x : ℂ) : ℂ := x ^ (2⁻¹ : ℂ)

/-- `p_squared` (113-119), component by component, flattened as in `vec`. -/
noncomputable def pSquared (sh : Shape) (d : Dxes) : VField sh.size := fun p =>
  (flattenF sh.toList (fun idx =>
    match p.1 with
    | 0 => d.e 0 (idx.getD 0 0) * d.h 1 (idx.getD 1 0) * d.h 2 (idx.getD 2 0)
    | 1 => d.h 0 (idx.getD 0 0) * d.e 1 (idx.getD 1 0) * d.h 2 (idx.getD 2 0)
    | 2 => d.h 0 (idx.getD 0 0) * d.h 1 (idx.getD 1 0) * d.e 2 (idx.getD 2 0))).getD p.2.val 0

/-- `e_full_preconditioners` (101-125). -/
noncomputable def eFullPreconditioners (sh : Shape) (d : Dxes) : Mat3 sh.size × Mat3 sh.size :=
  let p : VField sh.size := fun q => npSqrt (pSquared sh d q)
  (Matrix.diagonal p, Matrix.diagonal (fun q => 1 / p q))

/-- `avgf` (450-462). -/
noncomputable def avgf (axis : Fin 3) (sh : Shape) : Option (Mat sh.size) :=
  (rotationBlochShift axis sh 1 0 0).map fun r => (1 / 2 : ℂ) • (1 + r)

/-- `avgb` (465-477). -/
noncomputable def avgb (axis : Fin 3) (sh : Shape) : Option (Mat sh.size) :=
  (rotationBlochShift axis sh (-1) 0 0).map fun r => (1 / 2 : ℂ) • (1 + r)

/-- The area matrix of the Chew Poynting operators (825-837, 873-887). -/
noncomputable def chewArea (sh : Shape) (d : Dxes) : Mat3 sh.size :=
  let dag : Fin 3 → Mat sh.size := fun a => diags sh.size (meshFlat sh d.e a)
  bmat ![![dag 1 * dag 2, 0, 0], ![0, dag 0 * dag 2, 0], ![0, 0, dag 0 * dag 1]]

/-- `poynting_chew_e_cross` (802-847). -/
noncomputable def poyntingChewECross (sh : Shape) (e : VField sh.size) (d : Dxes) :
    Option (Mat3 sh.size) :=
  (forAxes fun i => rotationBlochShift i sh 1 0 0).map fun s =>
    let dia : Fin 3 → Fin 3 → Mat sh.size :=
      fun a c => Matrix.diagonal (s a *ᵥ fun i => e (c, i))
    chewArea sh d * bmat ![![0, -dia 0 2, dia 0 1], ![dia 1 2, 0, -dia 1 0],
      ![-dia 2 1, dia 2 0, 0]]

/-- `poynting_chew_h_cross` (850-895). -/
noncomputable def poyntingChewHCross (sh : Shape) (h : VField sh.size) (d : Dxes) :
    Option (Mat3 sh.size) :=
  (forAxes fun i => rotationBlochShift i sh 1 0 0).map fun s =>
    let dia : Fin 3 → Mat sh.size := fun c => Matrix.diagonal (fun i => h (c, i))
    chewArea sh d * bmat ![![0, -(dia 2) * s 0, dia 1 * s 0], ![dia 2 * s 1, 0, -(dia 0) * s 1],
      ![-(dia 1) * s 2, dia 0 * s 2, 0]]

end Verif.Fdfd
