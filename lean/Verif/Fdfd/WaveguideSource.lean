import Verif.Fdfd.Waveguide
import Verif.Fdfd.Functional
/-
Model of `spins/fdfd_solvers/waveguide_mode.py`: the step from a mode of the cross-section to fields on the grid and to the
current of a one-way source. The eigenvalue solver itself (power iteration, `eigs`, Rayleigh quotient iteration, 41-77) is not
modelled: the fields of the cross-section are an input. Arrays over the cross-section are functions of two indices.
-/
namespace Verif.Fdfd

/-- `np.roll(range(3), k)[i]`. -/
def rollRange (k : Int) (i : Fin 3) : Fin 3 := ⟨(((i.val : Int) - k) % 3).toNat, by
  have h1 := Int.emod_nonneg ((i.val : Int) - k) (b := 3) (by decide)
  have h2 := Int.emod_lt_of_pos ((i.val : Int) - k) (b := 3) (by decide)
  omega⟩

/-- `order` (308). -/
def wgOrder (axis : Fin 3) : Fin 3 → Fin 3 := rollRange (2 - axis.val)

/-- `reverse_order` (309). -/
def wgRevOrder (axis : Fin 3) : Fin 3 → Fin 3 := rollRange (axis.val - 2)

/-- `src_order` (394). -/
def srcOrder (axis : Fin 3) : Fin 3 → Fin 3 := rollRange (-axis.val)

/-- `slices`: `slice(lo, hi)` for each axis; the slice of the propagation axis selects one plane. -/
structure Slc where
  lo : Fin 3 → Nat
  hi : Fin 3 → Nat

variable {sh : Shape}

/-- Reading an array; the indices are in range for the slices of a grid. -/
def readCell (f : Arr sh) (idx : Fin 3 → Nat) : ℂ :=
  if h : ∀ b, idx b < sh b then f (fun b => ⟨idx b, h b⟩) else 0

/-- `[f[i][tuple(slices)].transpose(order) for i in order]` (314-317), entry `(i, j)` of component `k`. -/
def secOf (f : FieldT sh) (axis : Fin 3) (sl : Slc) (k : Fin 3) (i j : Nat) : ℂ :=
  readCell (f (wgOrder axis k)) fun b =>
    if b = wgOrder axis 0 then sl.lo b + i else if b = wgOrder axis 1 then sl.lo b + j else sl.lo b

/-- `[[dx[i][slices[i]] for i in order[:2]] for dx in dxes]` (313). -/
def secDx (d : Dxes) (axis : Fin 3) (sl : Slc) : Dxes2 :=
  ⟨fun k i => if k = 0 then d.e (wgOrder axis 0) (sl.lo (wgOrder axis 0) + i)
      else d.e (wgOrder axis 1) (sl.lo (wgOrder axis 1) + i),
   fun k i => if k = 0 then d.h (wgOrder axis 0) (sl.lo (wgOrder axis 0) + i)
      else d.h (wgOrder axis 1) (sl.lo (wgOrder axis 1) + i)⟩

/-- The wavenumber that `solve_waveguide_mode_2d` returns with `wavenumber_correction` (93-99); `dx` is 1. The imaginary part is
added as a real number. -/
noncomputable def correctWavenumber (wavenumber : ℂ) : ℂ :=
  ((Real.sin (wavenumber.re / 2) / (1 / 2) + wavenumber.im : ℝ) : ℂ)

/-- The same in `spins/fdfd_tools/waveguide_mode.py` (94-95), which is not imported by the package. -/
noncomputable def correctWavenumberTools (wavenumber : ℂ) : ℂ :=
  wavenumber - ((2 * Real.sin (wavenumber.re / 2) - wavenumber.re : ℝ) : ℂ)

/-- Arrays over the cross-section, one for each component. -/
abbrev SecField := Fin 3 → Nat → Nat → ℂ

/-- `fields_2d['E']` after the adjustment for the direction (329-332). -/
noncomputable def adjustE (polarity : Int) (E2 : SecField) : SecField :=
  if polarity < 0 then fun k i j => star (E2 k i j) else E2

/-- `fields_2d['H']` after the adjustment for the direction and the phase shift (329-338). -/
noncomputable def adjustH (d : Dxes) (axis : Fin 3) (polarity : Int) (sl : Slc) (wavenumber : ℂ) (H2 : SecField) : SecField :=
  let dProp := 0.5 * (d.e (wgOrder axis 2) (sl.lo (wgOrder axis 2)) + d.h (wgOrder axis 2) (sl.lo (wgOrder axis 2)))
  let H := if polarity < 0 then fun k i j => -star (H2 k i j) else H2
  fun k i j => H k i j * Complex.exp (-(polarity : ℂ) * Complex.I * 0.5 * wavenumber * dProp)

/-- `E[a] = zeros; E[a][slices] = fields_2d['E'][o][:, :, None].transpose(reverse_order)` (341-350). -/
def expandSec (axis : Fin 3) (sl : Slc) (F : SecField) : FieldT sh := fun a c =>
  if ∀ b, sl.lo b ≤ (c b).val ∧ (c b).val < sl.hi b then
    F (wgRevOrder axis a) ((c (wgOrder axis 0)).val - sl.lo (wgOrder axis 0))
      ((c (wgOrder axis 1)).val - sl.lo (wgOrder axis 1))
  else 0

/-- `J[o[0]], J[o[1]], J[o[2]] = x[0], x[1], x[2]` for a permutation `o`. -/
def assign3 (o : Fin 3 → Fin 3) (x : Fin 3 → Arr sh) : FieldT sh := fun b =>
  if b = o 0 then x 0 else if b = o 1 then x 1 else x 2

/-- `M` of `compute_source` (401-403). -/
def sourceM (axis : Fin 3) (polarity : Int) (E : FieldT sh) : FieldT sh :=
  assign3 (srcOrder axis) ![fun _ => 0, fun c => npRoll (E (srcOrder axis 2)) (-1) axis c * (polarity : ℂ),
    fun c => -(npRoll (E (srcOrder axis 1)) (-1) axis c * (polarity : ℂ))]

/-- `compute_source` (361-411). -/
noncomputable def computeSource (E H : FieldT sh) (wavenumber omega : ℂ) (d : Dxes) (axis : Fin 3) (polarity : Int) (sl : Slc)
    (mu : Option (FieldT sh)) : FieldT sh :=
  let m : FieldT sh := mu.getD fun _ _ => 1
  let expIphi := Complex.exp (Complex.I * (polarity : ℂ) * wavenumber * d.h axis (sl.lo axis))
  let J : FieldT sh := assign3 (srcOrder axis) ![fun _ => 0, fun c => expIphi * H (srcOrder axis 2) c * (polarity : ℂ),
    fun c => -(expIphi * H (srcOrder axis 1) c * (polarity : ℂ))]
  let M := sourceM axis polarity E
  let Jm := fnCurlH d fun k c => M k c / m k c
  fun k c => (J k c + Jm k c / (-Complex.I * omega)) / d.h axis (sl.lo axis)

/-- `build_waveguide_source` (689-749) from the fields of the cross-section on, with the wavenumber of
`solve_waveguide_mode_2d`. `phase` is the phase of the largest component of the electric field, a number of modulus 1 (731-739). -/
noncomputable def buildSource (omega : ℂ) (d : Dxes) (mu : Option (FieldT sh)) (axis : Fin 3) (polarity : Int) (sl : Slc)
    (power : ℝ) (phase : ℂ) (wavenumber : ℂ) (E2 H2 : SecField) : FieldT sh :=
  let E : FieldT sh := expandSec axis sl (adjustE polarity E2)
  let H : FieldT sh := expandSec axis sl (adjustH d axis polarity sl wavenumber H2)
  let J := computeSource (fun k c => E k c / phase) (fun k c => H k c / phase) wavenumber omega d axis polarity sl mu
  fun k c => J k c * ((Real.sqrt power : ℝ) : ℂ)

end Verif.Fdfd
