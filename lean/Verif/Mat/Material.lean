import Verif.Mat.Pchip
import Verif.Mat.Tables
import Mathlib.Data.Complex.Basic
import Mathlib.Data.Rat.Cast.Order
/-
Model of `spins/material/material.py`, of `_get_mat_index` in `spins/invdes/problem_graph/simspace.py` and of
`get_material` in `spins/goos/material.py`. Numbers are exact. A wavelength is one positive number in nanometres
(the code maps arrays pointwise); `none` stands for an exception.
-/
namespace Verif.Mat
open Complex

/-- `interpolate_using_wavelengths` (`material.py` 10-22). -/
noncomputable def interpWavelengths (wl : ℝ) (wlens n k : List ℝ) : Option (ℝ × ℝ) :=
  (pchip wlens n wl).bind fun a => (pchip wlens k wl).map fun b => (a, b)

/-- `Eq` (`material.py` 35-39): the photon energy in electronvolts. -/
noncomputable def photonEnergy (wl : ℝ) : ℝ := 4.135667516e-15 * 299792458 / (wl * 1e-9)

/-- `interpolate_using_energy` (`material.py` 25-42); `reverse_arr` (6-7) is `List.reverse`. -/
noncomputable def interpEnergy (wl : ℝ) (n k en ek : List ℝ) : Option (ℝ × ℝ) :=
  (pchip en.reverse n.reverse (photonEnergy wl)).bind fun a =>
    (pchip ek.reverse k.reverse (photonEnergy wl)).map fun b => (a, b)

/-- A table as a list of reals. -/
noncomputable def real (l : List ℚ) : List ℝ := l.map fun (q : ℚ) => (q : ℝ)

/-- The materials: `CustomMaterial` (62-79), `Air` (82-85), `SiO2` (88-343), `Si` (346-511), `Si3N4` (514-536). -/
inductive Medium
  | custom (wlens n k : List ℝ)
  | air
  | sio2
  | si
  | si3n4

/-- `refractive_index` of each class: the index and the extinction coefficient. -/
noncomputable def refractiveIndex (m : Medium) (wl : ℝ) : Option (ℝ × ℝ) :=
  match m with
  | .custom wlens n k => interpWavelengths wl wlens n k
  | .air => some (1, 0)
  | .sio2 => interpEnergy wl (real sio2N0) (real sio2K0) (real sio2En) (real sio2Ek)
  | .si => interpEnergy wl (real siN0) (real siK0) (real siEn) (real siEk)
  | .si3n4 => interpEnergy wl (real sinN) (real sinK) (real sinEV) (real sinEV)

/-- `Material.eps_real` (`material.py` 51-54). -/
noncomputable def epsReal (m : Medium) (wl : ℝ) : Option ℝ :=
  (refractiveIndex m wl).map fun p => p.1 ^ 2 - p.2 ^ 2

/-- `Material.eps` (`material.py` 56-59). -/
noncomputable def eps (m : Medium) (wl : ℝ) : Option ℂ :=
  (refractiveIndex m wl).map fun p => ((p.1 : ℂ) - I * (p.2 : ℂ)) ^ 2

/-- The names `_get_mat_index` knows (`simspace.py` 354-363). -/
def matOfName (name : String) : Option Medium :=
  if name ∈ ["Air", "air"] then some .air
  else if name ∈ ["SiO2", "sio2", "sio"] then some .sio2
  else if name ∈ ["Si", "si"] then some .si
  else if name ∈ ["Si3N4", "sin", "si3n4", "SiN"] then some .si3n4
  else none

/-- The columns of a csv file that are read; a column that is not there is `none`. Reading the file from the disk
is not modelled. -/
structure Csv where
  wl : Option (List ℝ)
  n : Option (List ℝ)
  k : Option (List ℝ)

/-- `optplan.Material` (`schema_em.py` 13-28): an index as real and imaginary part, a name, and a file. The files
that can be found, under the given path or in the directory of the package, are a function `files`. -/
structure MatSpec where
  index : Option (ℝ × ℝ)
  name : Option String
  file : Option String

/-- The material of a csv file (`simspace.py` 378-395): the wavelengths of the file are in micrometres. -/
noncomputable def matOfCsv (c : Csv) : Option Medium :=
  c.wl.bind fun wl => c.n.map fun n =>
    Medium.custom (wl.map fun w => w * 1000) n (c.k.getD (wl.map fun _ => 0))

/-- `_get_mat_index` (`simspace.py` 331-401). -/
noncomputable def getMatIndex (files : String → Option Csv) (spec : MatSpec) (wl : ℝ) : Option ℂ :=
  match spec.index, spec.name, spec.file with
  | some (re, im), _, _ => some ((re : ℂ) + I * (im : ℂ))
  | none, some name, _ => (matOfName name).bind fun m => (refractiveIndex m wl).map fun p => (p.1 : ℂ)
  | none, none, some f => (files f).bind fun c => (matOfCsv c).bind fun m =>
      (refractiveIndex m wl).map fun p => (p.1 : ℂ) - I * (p.2 : ℂ)
  | none, none, none => none

/-- The permittivity a simulation space gives to a material (`simspace.py` 204, 221, 255, 313-314). -/
noncomputable def spacePermittivity (files : String → Option Csv) (spec : MatSpec) (wl : ℝ) : Option ℂ :=
  (getMatIndex files spec wl).map fun x => x ^ 2

/-- `goos.material.get_material(mat).permittivity(wlen)` (`goos/material.py` 23-41): only `index` is looked at;
`None ** 2` is a `TypeError`. -/
noncomputable def goosPermittivity (spec : MatSpec) (_wl : ℝ) : Option ℂ :=
  spec.index.map fun p => ((p.1 : ℂ) + I * (p.2 : ℂ)) ^ 2

end Verif.Mat
