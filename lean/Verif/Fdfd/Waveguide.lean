import Verif.Fdfd.Rotation
import Mathlib.Analysis.SpecialFunctions.Complex.Arg
import Mathlib.Analysis.Real.Sqrt
/-
Model of `spins/fdfd_tools/waveguide.py`: waveguide modes on a two-dimensional cross-section with
`n0` times `n1` cells. Vectorised fields are indexed by `(component, position)` as in
`Operators.lean`; the vector `[H_x, H_y]` has two components. Numbers are exact complex numbers.
-/
namespace Verif.Fdfd
open Matrix

/-- The shape of the cross-section. -/
abbrev Sec (n0 n1 : Nat) : List Nat := [n0, n1]

/-- Vectorised `[H_x, H_y]`. -/
abbrev VField2 (n : Nat) := Fin 2 × Fin n → ℂ

/-- `dxes = [dx_e, dx_h]` of the cross-section: axes 0 and 1; only indices below the shape matter. -/
structure Dxes2 where
  e : Nat → Nat → ℂ
  h : Nat → Nat → ℂ

/-- `sparse.vstack((a, b))`. -/
def vstack {n : Nat} (A B : Mat n) : Matrix (Fin 2 × Fin n) (Fin n) ℂ := fun p j => ![A, B] p.1 p.2 j

/-- `sparse.hstack((a, b))`. -/
def hstack {n : Nat} (A B : Mat n) : Matrix (Fin n) (Fin 2 × Fin n) ℂ := fun i q => ![A, B] q.1 i q.2

/-- `Dfx, Dfy = operators.deriv_forward(dxes[0])` and `Dbx, Dby = operators.deriv_back(dxes[1])` (62-63). -/
structure Derivs (n : Nat) where
  fx : Mat n
  fy : Mat n
  bx : Mat n
  bY : Mat n

noncomputable def derivs (n0 n1 : Nat) (d : Dxes2) : Option (Derivs (numel (Sec n0 n1))) :=
  (derivForward (Sec n0 n1) d.e 0 0).bind fun fx => (derivForward (Sec n0 n1) d.e 0 1).bind fun fy =>
    (derivBack (Sec n0 n1) d.h 0 0).bind fun bx => (derivBack (Sec n0 n1) d.h 0 1).map fun bY =>
      ⟨fx, fy, bx, bY⟩

/-- `mu` where the default is 1 everywhere (59-60). -/
def muOf {n : Nat} (mu : Option (VField n)) : VField n := mu.getD 1

variable {n : Nat}

/-- `op` of `operator` before the cast (65-75). -/
noncomputable def wgFull (D : Derivs n) (omega : ℂ) (epsilon : VField n) (mu : Option (VField n)) :
    Matrix (Fin 2 × Fin n) (Fin 2 × Fin n) ℂ :=
  let epsYx : Matrix (Fin 2 × Fin n) (Fin 2 × Fin n) ℂ :=
    Matrix.diagonal fun p => ![epsilon (1, p.2), epsilon (0, p.2)] p.1
  let epsZInv : Mat n := Matrix.diagonal fun i => 1 / epsilon (2, i)
  let muXy : Matrix (Fin 2 × Fin n) (Fin 2 × Fin n) ℂ :=
    Matrix.diagonal fun p => ![muOf mu (0, p.2), muOf mu (1, p.2)] p.1
  let muZInv : Mat n := Matrix.diagonal fun i => 1 / muOf mu (2, i)
  (omega ^ 2 • epsYx) * muXy + epsYx * vstack (-D.fy) D.fx * epsZInv * hstack (-D.bY) D.bx +
    vstack D.bx D.bY * muZInv * hstack D.fx D.fy * muXy

/-- `operator` (32-79): the matrix is cast to real numbers, which drops the imaginary parts. -/
noncomputable def wgOperator (D : Derivs n) (omega : ℂ) (epsilon : VField n) (mu : Option (VField n)) :
    Matrix (Fin 2 × Fin n) (Fin 2 × Fin n) ℂ :=
  (wgFull D omega epsilon mu).map fun z => ((z.re : ℝ) : ℂ)

/-- `v2h` (131-156). -/
noncomputable def v2h (D : Derivs n) (v : VField2 n) (wavenumber : ℂ) (mu : Option (VField n)) : VField n :=
  let op := hstack D.fx D.fy
  let op := match mu with
    | none => op
    | some m =>
      (Matrix.diagonal fun i => 1 / m (2, i)) * op *
        (Matrix.diagonal fun p : Fin 2 × Fin n => ![m (0, p.2), m (1, p.2)] p.1)
  let w : Fin n → ℂ := fun i => (op *ᵥ v) i / (Complex.I * wavenumber)
  fun p => ![v (0, p.2), v (1, p.2), w p.2] p.1

/-- `curl_e` (217-231). -/
noncomputable def wgCurlE (D : Derivs n) (wavenumber : ℂ) : Mat3 n :=
  cross ![D.fx, D.fy, (-Complex.I * wavenumber) • (1 : Mat n)]

/-- `curl_h` (234-248). -/
noncomputable def wgCurlH (D : Derivs n) (wavenumber : ℂ) : Mat3 n :=
  cross ![D.bx, D.bY, (-Complex.I * wavenumber) • (1 : Mat n)]

/-- `e2h` (181-198). -/
noncomputable def wgE2h (D : Derivs n) (wavenumber omega : ℂ) (mu : Option (VField n)) : Mat3 n :=
  let op := (1 / (-Complex.I * omega)) • wgCurlE D wavenumber
  match mu with
  | none => op
  | some m => (Matrix.diagonal (fun p => 1 / m p) : Mat3 n) * op

/-- `h2e` (201-214). -/
noncomputable def wgH2e (D : Derivs n) (wavenumber omega : ℂ) (epsilon : VField n) : Mat3 n :=
  (Matrix.diagonal (fun p => 1 / (Complex.I * omega * epsilon p)) : Mat3 n) * wgCurlH D wavenumber

/-- `v2e` (159-178). -/
noncomputable def v2e (D : Derivs n) (v : VField2 n) (wavenumber omega : ℂ) (epsilon : VField n)
    (mu : Option (VField n)) : VField n :=
  wgH2e D wavenumber omega epsilon *ᵥ v2h D v wavenumber mu

/-- `numpy.linalg.norm` of a vectorised field. -/
noncomputable def vnorm (x : VField n) : ℝ := Real.sqrt (∑ p, Complex.normSq (x p))

/-- `h_err` (251-278). -/
noncomputable def hErr (D : Derivs n) (h : VField n) (wavenumber omega : ℂ) (epsilon : VField n)
    (mu : Option (VField n)) : ℝ :=
  let ce := wgCurlE D wavenumber
  let ch := wgCurlH D wavenumber
  let epsInv : Mat3 n := Matrix.diagonal fun p => 1 / epsilon p
  let op : VField n := match mu with
    | none => (ce * epsInv * ch) *ᵥ h - (fun p => omega ^ 2 * h p)
    | some m => (ce * epsInv * ch) *ᵥ h - (fun p => omega ^ 2 * (m p * h p))
  vnorm op / vnorm h

/-- `e_err` (281-307). -/
noncomputable def eErr (D : Derivs n) (e : VField n) (wavenumber omega : ℂ) (epsilon : VField n)
    (mu : Option (VField n)) : ℝ :=
  let ce := wgCurlE D wavenumber
  let ch := wgCurlH D wavenumber
  let op : VField n := match mu with
    | none => (ch * ce) *ᵥ e - (fun p => omega ^ 2 * (epsilon p * e p))
    | some m => (ch * (Matrix.diagonal fun p => 1 / m p) * ce) *ᵥ e - (fun p => omega ^ 2 * (epsilon p * e p))
  vnorm op / vnorm e

/-- An array over the cross-section. -/
abbrev Arr2 (n0 n1 : Nat) := Fin n0 → Fin n1 → ℂ

/-- Component `a` of `unvec(f, shape)` (103, 107-108). -/
noncomputable def unvec2 {n0 n1 : Nat} (f : VField (numel (Sec n0 n1))) (a : Fin 3) : Arr2 n0 n1 := fun i j =>
  if h : ravelF (Sec n0 n1) [i.val, j.val] < numel (Sec n0 n1) then f (a, ⟨ravelF (Sec n0 n1) [i.val, j.val], h⟩)
  else 0

/-- `np.roll(f, 1, axis=0)`. -/
def roll0 {n0 n1 : Nat} (f : Arr2 n0 n1) : Arr2 n0 n1 := fun i j =>
  f ⟨(i.val + (n0 - 1)) % n0, Nat.mod_lt _ (Nat.lt_of_le_of_lt (Nat.zero_le _) i.isLt)⟩ j

/-- `np.roll(f, 1, axis=1)`. -/
def roll1 {n0 n1 : Nat} (f : Arr2 n0 n1) : Arr2 n0 n1 := fun i j =>
  f i ⟨(j.val + (n1 - 1)) % n1, Nat.mod_lt _ (Nat.lt_of_le_of_lt (Nat.zero_le _) j.isLt)⟩

/-- `P` of `normalized_fields` (104-118). -/
noncomputable def wgPower (n0 n1 : Nat) (d : Dxes2) (e h : VField (numel (Sec n0 n1))) : ℝ :=
  let E := unvec2 (n0 := n0) (n1 := n1) e
  let H := unvec2 (n0 := n0) (n1 := n1) h
  let S1 : Arr2 n0 n1 := fun i j =>
    E 0 i j * roll0 (fun i j => star (H 1 i j)) i j * ((d.e 1 j).re : ℂ) * ((d.h 0 i).re : ℂ)
  let S2 : Arr2 n0 n1 := fun i j =>
    E 1 i j * roll1 (fun i j => star (H 0 i j)) i j * ((d.e 0 i).re : ℂ) * ((d.h 1 j).re : ℂ)
  let S : Arr2 n0 n1 := fun i j => 0.5 * ((S1 i j + roll0 S1 i j) - (S2 i j + roll1 S2 i j))
  0.5 * (∑ i, ∑ j, S i j).re

/-- The element `e[e.size // 2]` (122). -/
noncomputable def middle {n : Nat} (e : VField n) : ℂ :=
  if h : (3 * n / 2) % n < n then
    (if h' : (3 * n / 2) / n < 3 then e (⟨(3 * n / 2) / n, h'⟩, ⟨(3 * n / 2) % n, h⟩) else 0)
  else 0

/-- `normalized_fields` (82-128); `none` is the failed assertion. -/
noncomputable def normalizedFields (n0 n1 : Nat) (D : Derivs (numel (Sec n0 n1))) (d : Dxes2)
    (v : VField2 (numel (Sec n0 n1))) (wavenumber omega : ℂ) (epsilon : VField (numel (Sec n0 n1)))
    (mu : Option (VField (numel (Sec n0 n1)))) :
    Option (VField (numel (Sec n0 n1)) × VField (numel (Sec n0 n1))) :=
  let e := v2e D v wavenumber omega epsilon mu
  let h := v2h D v wavenumber mu
  let P := wgPower n0 n1 d e h
  if 0 < P then
    let normAmplitude : ℝ := 1 / Real.sqrt P
    let normAngle : ℝ := -(middle e).arg
    let f : ℂ := (normAmplitude : ℂ) * Complex.exp (Complex.I * (normAngle : ℂ))
    some (fun p => e p * f, fun p => h p * f)
  else none

end Verif.Fdfd
