import Verif.Fdfd.Operators
/-
Model of `spins/fdfd_solvers/phc_mode_solver.py`. Numbers are exact complex numbers. `scipy.sparse.linalg.eigs`
and the FDFD solver used for the starting vector are arbitrary functions; what the properties need of `eigs` is a
hypothesis of the theorems. Fields are vectorised (`vec`, C18).
-/
namespace Verif.Fdfd
open Matrix

/-- `efield_operator` (11-45): the operator, `eps_norm` and `eps_un_norm`. The argument `mu` is not used by the
code. `none` is the exception of `curl_e` and `curl_h`. -/
noncomputable def efieldOperator (sh : Shape) (k : Fin 3 → ℂ) (d : Dxes) (epsilon : VField sh.size)
    (_mu : VField sh.size) (so : Fin 3 → Fin 3 → Int) : Option (Mat3 sh.size × Mat3 sh.size × Mat3 sh.size) :=
  (curlE sh d k so).bind fun ce => (curlH sh d k so).map fun ch =>
    let epsNorm : Mat3 sh.size := Matrix.diagonal (fun p => 1 / npSqrt (epsilon p))
    let epsUnNorm : Mat3 sh.size := Matrix.diagonal (fun p => npSqrt (epsilon p))
    (epsNorm * ch * ce * epsNorm, epsNorm, epsUnNorm)

/-- `hfield_operator` (48-82): the operator. The identity of 78 (which has the wrong size) is never used by
`mode_solver` and is left out; `mu` is not used. -/
noncomputable def hfieldOperator (sh : Shape) (k : Fin 3 → ℂ) (d : Dxes) (epsilon : VField sh.size)
    (_mu : VField sh.size) (so : Fin 3 → Fin 3 → Int) : Option (Mat3 sh.size) :=
  (curlE sh d k so).bind fun ce => (curlH sh d k so).map fun ch =>
    ce * (Matrix.diagonal (fun p => 1 / epsilon p) : Mat3 sh.size) * ch

/-- The arguments of `mode_solver` (85-94). -/
structure PhcArgs (sh : Shape) where
  bloch : Fin 3 → ℂ
  omegaAppx : ℂ
  numModes : Nat
  d : Dxes
  eps : VField sh.size
  opType : String
  setInitCond : Bool
  initVec : Option (VField sh.size)
  mu : Option (VField sh.size)
  so : Fin 3 → Fin 3 → Int

/-- `eigs(op, k, sigma, v0)`: the eigenvalues and the columns of the matrix of eigenvectors. -/
abbrev Eigs (sh : Shape) := Mat3 sh.size → Nat → ℂ → Option (VField sh.size) → List (ℂ × VField sh.size)

/-- The source of 113-115 at the cell with the given indices: one in the first two components at the middle. -/
def middleSource (sh : Shape) : VField sh.size := fun p =>
  if p.1.val < 2 ∧ p.2.val = ravelF sh.toList [sh 0 / 2, sh 1 / 2, sh 2 / 2] then 1 else 0

/-- The calls of `eigs` (110-149); `start` is the starting vector made from the FDFD solution (130-137). -/
noncomputable def runEigs {sh : Shape} (eigs : Eigs sh) (a : PhcArgs sh) (op : Mat3 sh.size)
    (start : VField sh.size → Option (VField sh.size)) (fdfd : VField sh.size → VField sh.size) :
    Option (List (ℂ × VField sh.size)) :=
  match a.initVec with
  | some v => some (eigs op 1 (a.omegaAppx ^ 2) (some v))
  | none =>
    if a.setInitCond then
      (start (fdfd (middleSource sh))).map fun v => eigs op a.numModes (a.omegaAppx ^ 2) (some v)
    else some (eigs op a.numModes (a.omegaAppx ^ 2) none)

/-- 152-158 for `'efield'`. With one mode the column is multiplied by `eps_norm`; with any other number of modes
the list of 156 has no `transpose` (and its products run over the rows of the matrix of modes), so that the call
raises. -/
noncomputable def finishE {sh : Shape} (epsNorm : Mat3 sh.size) (r : List (ℂ × VField sh.size)) :
    Option (List ℂ × List (VField sh.size)) :=
  if r.length = 1 then some (r.map (fun x => npSqrt x.1), r.map (fun x => epsNorm *ᵥ x.2))
  else none

/-- 150, 158 for `'hfield'`. -/
noncomputable def finishH {sh : Shape} (r : List (ℂ × VField sh.size)) :
    Option (List ℂ × List (VField sh.size)) :=
  some (r.map (fun x => npSqrt x.1), r.map (fun x => x.2))

/-- `mode_solver` (85-158): the frequencies and, row by row, the fields; `none` is an exception. -/
noncomputable def phcModeSolver {sh : Shape} (eigs : Eigs sh) (fdfd : VField sh.size → VField sh.size)
    (a : PhcArgs sh) : Option (List ℂ × List (VField sh.size)) :=
  let mu : VField sh.size := a.mu.getD (fun _ => 1)
  if a.opType = "efield" then
    (efieldOperator sh a.bloch a.d a.eps mu a.so).bind fun t =>
      (runEigs eigs a t.1 (fun E => some (t.2.2 *ᵥ E)) fdfd).bind fun r => finishE t.2.1 r
  else if a.opType = "hfield" then
    (hfieldOperator sh a.bloch a.d a.eps mu a.so).bind fun op =>
      (runEigs eigs a op (fun E => (e2h sh 1 a.d (some mu) none a.bloch 0).map fun m => m *ᵥ E) fdfd).bind
        fun r => finishH r
  else none

end Verif.Fdfd
