import Verif.Fdfd.WaveguideSource
import Verif.Fdfd.Cells
import Mathlib.LinearAlgebra.Matrix.NonsingularInverse
import Mathlib.LinearAlgebra.Matrix.Notation
import Mathlib.Analysis.SpecialFunctions.Trigonometric.Arctan
import Mathlib.Analysis.Real.Sqrt
import Mathlib.Algebra.Order.Archimedean.Real.Basic
/-
Model of `spins/fdfd_tools/free_space_sources.py` (plane waves, Gaussian beams, normalisation by a simulation) and of
`spins/fdfd_solvers/dipole.py`. Numbers are exact. Frequencies, angles, powers and positions are real.
-/
namespace Verif.Fdfd.FreeSpace
open Matrix

/-! ### Rotations -/

/-- `rotation_matrix` (18-37). -/
noncomputable def rotationMatrix (v : Fin 3 → ℝ) (t : ℝ) : Matrix (Fin 3) (Fin 3) ℝ :=
  !![Real.cos t + v 0 ^ 2 * (1 - Real.cos t), v 0 * v 1 * (1 - Real.cos t) - v 2 * Real.sin t,
      v 0 * v 2 * (1 - Real.cos t) + v 1 * Real.sin t;
    v 0 * v 1 * (1 - Real.cos t) + v 2 * Real.sin t, Real.cos t + v 1 ^ 2 * (1 - Real.cos t),
      v 1 * v 2 * (1 - Real.cos t) - v 0 * Real.sin t;
    v 0 * v 2 * (1 - Real.cos t) - v 1 * Real.sin t, v 1 * v 2 * (1 - Real.cos t) + v 0 * Real.sin t,
      Real.cos t + v 2 ^ 2 * (1 - Real.cos t)]

/-- `polarity`, `theta`, `psi` and `polarization_angle` of a source. -/
structure Aim where
  polarity : ℝ
  theta : ℝ
  psi : ℝ
  pol : ℝ

/-- `R_psi @ R_theta` (145-147). -/
noncomputable def Aim.tilt (m : Aim) : Matrix (Fin 3) (Fin 3) ℝ :=
  rotationMatrix ![0, 0, m.polarity] m.psi * rotationMatrix ![1, 0, 0] m.theta

/-- `k` after 147. -/
noncomputable def Aim.k (m : Aim) : Fin 3 → ℝ := m.tilt *ᵥ ![0, 0, m.polarity]

/-- `R` (148-149). -/
noncomputable def Aim.R (m : Aim) : Matrix (Fin 3) (Fin 3) ℝ :=
  rotationMatrix m.k m.pol * rotationMatrix ![0, 0, m.polarity] m.psi * rotationMatrix ![1, 0, 0] m.theta

/-- `e0_rot` (150). -/
noncomputable def Aim.e0 (m : Aim) : Fin 3 → ℝ := m.R *ᵥ ![1, 0, 0]

/-! ### Scalar fields -/

/-- Row `i` of `R` applied to a position, as in 44-49 and 72. -/
def rowDot (R : Matrix (Fin 3) (Fin 3) ℝ) (i : Fin 3) (x : Fin 3 → ℝ) : ℝ :=
  R i 0 * x 0 + R i 1 * x 1 + R i 2 * x 2

/-- `plane_wave_z_axis_x_pol` (68-77) at one point. -/
noncomputable def planeScalar (omega polarity epsVal : ℝ) (x : Fin 3 → ℝ) (R : Matrix (Fin 3) (Fin 3) ℝ) : ℂ :=
  let z := rowDot R 2 x
  let wlen := 2 * Real.pi / (omega * Real.sqrt epsVal)
  let k := 2 * Real.pi / wlen
  Complex.exp (-(polarity : ℂ) * Complex.I * k * z)

/-- `gaussian_beam_z_axis_x_pol` (40-65) at one point; `x ** 0.5` is the square root. -/
noncomputable def gaussScalar (omega polarity epsVal w0 : ℝ) (center : Fin 3 → ℝ) (r : Fin 3 → ℝ)
    (R : Matrix (Fin 3) (Fin 3) ℝ) : ℂ :=
  let x := rowDot R 0 (fun j => r j - center j)
  let y := rowDot R 1 (fun j => r j - center j)
  let z := rowDot R 2 (fun j => r j - center j)
  let wlen := 2 * Real.pi / (omega * Real.sqrt epsVal)
  let k := 2 * Real.pi / wlen
  let zr := Real.pi * w0 ^ 2 / wlen
  let wz := w0 * Real.sqrt (1 + (z / zr) ^ 2)
  let invRz := if z ≠ 0 then (z * (1 + (zr / z) ^ 2))⁻¹ else 0
  let gouy := Real.arctan (z / zr)
  let r2 := x ^ 2 + y ^ 2
  let imp := Real.sqrt (1 / epsVal)
  ((Real.sqrt imp * 2 / (Real.sqrt Real.pi * w0) * (w0 / wz) * Real.exp (-r2 / wz ^ 2) : ℝ) : ℂ) *
    Complex.exp (-Complex.I * polarity * ((k * z + k * invRz * (r2 / 2) - gouy : ℝ) : ℂ))

/-! ### Vector fields -/

/-- What is used of `eps_grid`: the coordinates `shifted_xyz(which_shifts=a)[b][i]`, the spacings `[dxyz, autoshifted_dxyz()]`
and the permittivity. -/
structure EpsGrid (sh : Shape) where
  xyz : Fin 3 → Fin 3 → Nat → ℝ
  d : Dxes
  eps : FieldT sh

variable {sh : Shape}

/-- The cells of `a[tuple(slices)]`. -/
def InSlices (sl : Slc) (c : Cell sh) : Prop := ∀ a, sl.lo a ≤ (c a).val ∧ (c a).val < sl.hi a

open Classical in
/-- `np.real(np.average(epsilon[0][tuple(slices)]))` (153, 245, 402). -/
noncomputable def epsVal (g : EpsGrid sh) (sl : Slc) : ℝ :=
  ((∑ c : Cell sh with InSlices sl c, g.eps 0 c) /
    ((Finset.univ.filter fun c : Cell sh => InSlices sl c).card : ℂ)).re

/-- The cell of the array with rolled axes that becomes the cell `c` by `.transpose(reverse_order)`: its index number `j`
is the index of `c` along `order[j]`. -/
def rollCell (axis : Fin 3) (c : Cell sh) : Cell (fun j => sh (wgOrder axis j)) := fun j => c (wgOrder axis j)

/-- `ex_mag`, `ey_mag`, `ez_mag` (126-163): component `o` in the rolled axes, at the points of the component `order[o]`. -/
noncomputable def localE (g : EpsGrid sh) (axis : Fin 3) (f : (Fin 3 → ℝ) → Matrix (Fin 3) (Fin 3) ℝ → ℂ) (m : Aim) :
    FieldT (fun j => sh (wgOrder axis j)) := fun o i =>
  f (fun j => g.xyz (wgOrder axis o) (wgOrder axis j) (i j).val) m.R⁻¹ * (m.e0 o : ℂ)

/-- `bloch_vector` (153-154). -/
noncomputable def localBloch (g : EpsGrid sh) (omega : ℝ) (sl : Slc) (m : Aim) : Fin 3 → ℝ := fun o =>
  m.k o * omega * Real.sqrt (epsVal g sl)

/-- The field a vectorised field is, and back (`unvec`, `vec`; see C18). -/
def unvecF (V : VField sh.size) : FieldT sh := fun a c => V (a, pos c)
noncomputable def vecF (f : FieldT sh) : VField sh.size := fun p => f p.1 (cellAt p.2)

theorem order_rev : ∀ axis b : Fin 3, wgOrder axis (wgRevOrder axis b) = b := by decide

/-- `H_fields` (165-172). -/
noncomputable def localH (g : EpsGrid sh) (mu : FieldT sh) (omega : ℝ) (axis : Fin 3) (sl : Slc)
    (f : (Fin 3 → ℝ) → Matrix (Fin 3) (Fin 3) ℝ → ℂ) (m : Aim) : Option (FieldT (fun j => sh (wgOrder axis j))) :=
  let dLocal : Dxes := ⟨fun j => g.d.e (wgOrder axis j), fun j => g.d.h (wgOrder axis j)⟩
  let muLocal : FieldT (fun j => sh (wgOrder axis j)) := fun o i =>
    mu (wgOrder axis o) (fun b => ⟨(i (wgRevOrder axis b)).val, by
      have h : _ < sh (wgOrder axis (wgRevOrder axis b)) := (i (wgRevOrder axis b)).isLt
      rwa [order_rev] at h⟩)
  (e2h _ omega dLocal (some (vecF muLocal)) none (fun o => (localBloch g omega sl m o : ℂ)) 0).map fun T =>
    unvecF (T *ᵥ vecF (localE g axis f m))

/-- The results of `scalar2rotated_vector_fields`. -/
structure Fields (sh : Shape) where
  E : FieldT sh
  H : FieldT sh
  wavevector : Fin 3 → ℝ

/-- `scalar2rotated_vector_fields` with `full_fields` (80-200); `mu` is one everywhere if it is not given. -/
noncomputable def vectorFields (g : EpsGrid sh) (mu : Option (FieldT sh)) (omega : ℝ) (axis : Fin 3) (sl : Slc)
    (f : (Fin 3 → ℝ) → Matrix (Fin 3) (Fin 3) ℝ → ℂ) (m : Aim) (power : ℝ) : Option (Fields sh) :=
  (localH g (mu.getD fun _ _ => 1) omega axis sl f m).map fun H =>
    { E := fun a c => (Real.sqrt power : ℂ) * localE g axis f m (wgRevOrder axis a) (rollCell axis c)
      H := fun a c => (Real.sqrt power : ℂ) * H (wgRevOrder axis a) (rollCell axis c)
      wavevector := fun a => localBloch g omega sl m (wgRevOrder axis a) }

/-! ### The current of a source -/

/-- `start <= i < stop` for `slice(ind - 1, ind + 1)` on an axis of `n` cells: a negative start counts from the end. -/
def inPair (n ind i : Nat) : Prop := (if ind = 0 then n - 1 else ind - 1) ≤ i ∧ i < ind + 1

/-- `ind` (341-348, 427-434). -/
noncomputable def planeIndex (axis : Fin 3) (sl : Slc) (polarity : ℝ) : Nat :=
  if polarity = -1 then sl.lo axis else sl.hi axis - 1

open Classical in
/-- `E` of 349-351: the field on the side of the plane it travels to. -/
noncomputable def halfField (axis : Fin 3) (sl : Slc) (polarity : ℝ) (E : FieldT sh) : FieldT sh := fun a c =>
  if (if polarity = -1 then (c axis).val < planeIndex axis sl polarity
      else planeIndex axis sl polarity ≤ (c axis).val) then E a c else 0

open Classical in
/-- The current (338-361, 424-447). -/
noncomputable def currentOf (g : EpsGrid sh) (omega : ℝ) (axis : Fin 3) (sl : Slc) (polarity : ℝ) (fl : Fields sh) :
    Option (FieldT sh) :=
  (eFull sh omega g.d (vecF g.eps) none none none (fun a => (fl.wavevector a : ℂ)) 0).map fun full =>
    let jTemp := unvecF ((1 / (-1 * Complex.I * omega)) • (full *ᵥ vecF (halfField axis sl polarity fl.E)))
    fun a c =>
      if (∀ b, b ≠ axis → sl.lo b ≤ (c b).val ∧ (c b).val < sl.hi b) ∧
          inPair (sh axis) (planeIndex axis sl polarity) (c axis).val then jTemp a c else 0

/-- The list `slices` of the caller after a source has been built: `J_slices` is the same list (340-348, 426-434). -/
noncomputable def slicesAfter (axis : Fin 3) (sl : Slc) (polarity : ℝ) : Slc :=
  ⟨Function.update sl.lo axis (planeIndex axis sl polarity - 1), Function.update sl.hi axis (planeIndex axis sl polarity + 1)⟩

/-- `build_gaussian_source` (366-449). -/
noncomputable def gaussianSource (g : EpsGrid sh) (omega w0 : ℝ) (center : Fin 3 → ℝ) (axis : Fin 3) (sl : Slc)
    (mu : Option (FieldT sh)) (m : Aim) (power : ℝ) : Option (FieldT sh × (Fin 3 → ℝ)) :=
  (vectorFields g mu omega axis sl (gaussScalar omega m.polarity (epsVal g sl) w0 center) m power).bind fun fl =>
    (currentOf g omega axis sl m.polarity fl).map fun J => (J, fl.wavevector)

/-! ### Plane waves with a border -/

/-- `np.arange(start, stop, step)` with exact numbers. -/
noncomputable def arange (start stop step : ℝ) : List ℝ :=
  (List.range ⌈(stop - start) / step⌉.toNat).map fun (i : Nat) => start + i * step

/-- `x` of `make_mask` (280-288). -/
noncomputable def maskCoords (size border : Nat) : List ℝ :=
  if 2 * border < size - 1 ∧ 0 < border then
    let d : ℝ := 1 / border
    arange 1 0 (-d) ++ List.replicate (size - 2 * border) 0 ++ arange d (1 + d) d
  else List.replicate size 0

/-- `size` (277, 305). -/
def Slc.size (sl : Slc) (b : Fin 3) : Nat := sl.hi b - sl.lo b

open Classical in
/-- `make_mask` (264-299). -/
noncomputable def makeMask (sl : Slc) (axis : Fin 3) (border : Fin 3 → Nat) (c : Cell sh) : ℝ :=
  if ∀ b, b ≠ axis → sl.lo b ≤ (c b).val ∧ (c b).val < sl.hi b then
    let ind : Fin 3 → ℝ := fun b =>
      if b = axis then 0 else (maskCoords (Slc.size sl b) (border b)).getD ((c b).val - sl.lo b) 0
    let co := Real.sqrt (ind 0 ^ 2 + ind 1 ^ 2 + ind 2 ^ 2)
    let co := if co > 1 then 1 else co
    1 + 2 * co ^ 3 - 3 * co ^ 2
  else 0

/-- The checks of the border (301-315); `none` is the `ValueError`. -/
def checkBorder (sl : Slc) (axis : Fin 3) (border : Fin 3 → Nat) : Option (Fin 3 → Nat) :=
  let border := Function.update border axis 0
  if ∀ b, 2 * border b < Slc.size sl b ∨ Slc.size sl b = 1 then
    some fun b => if 2 * border b < Slc.size sl b then border b else 0
  else none

open Classical in
/-- `compute_transmission_chew` (`spins/fdfd_solvers/waveguide_mode.py` 598-634); `none` is the `ValueError`. -/
noncomputable def transmissionChew (d : Dxes) (axis : Fin 3) (sl : Slc) (E H : FieldT sh) : Option ℝ :=
  if sl.hi axis - sl.lo axis ≠ 1 then none
  else (poyntingChewECross sh (vecF E) d).map fun X =>
    ‖∑ p : Fin 3 × Fin sh.size, (if p.1 = axis then (1 : ℂ) else 0) *
      (if InSlices sl (cellAt p.2) then 1 else 0) * (X *ᵥ fun q => star (vecF H q)) p‖

/-- `slices_P` (320-323). -/
def shrink (sl : Slc) (border : Fin 3 → Nat) : Slc := ⟨fun b => sl.lo b + border b, fun b => sl.hi b - border b⟩

/-- `fields` after 333: normalised and masked. -/
noncomputable def planeFields (g : EpsGrid sh) (omega : ℝ) (axis : Fin 3) (sl : Slc) (mu : Option (FieldT sh)) (m : Aim)
    (border : Fin 3 → Nat) (power : ℝ) : Option (Fields sh) :=
  (vectorFields g mu omega axis sl (planeScalar omega m.polarity (epsVal g sl)) m power).bind fun fl =>
    (checkBorder sl axis border).bind fun border =>
      (transmissionChew g.d axis (shrink sl border) fl.E fl.H).map fun P =>
        { E := fun a c => (makeMask sl axis border c : ℂ) * (fl.E a c / (Real.sqrt |P| : ℂ))
          H := fun a c => (makeMask sl axis border c : ℂ) * (fl.H a c / (Real.sqrt |P| : ℂ))
          wavevector := fl.wavevector }

/-- `build_plane_wave_source` (203-363). -/
noncomputable def planeWaveSource (g : EpsGrid sh) (omega : ℝ) (axis : Fin 3) (sl : Slc) (mu : Option (FieldT sh)) (m : Aim)
    (border : Fin 3 → Nat) (power : ℝ) : Option (FieldT sh × (Fin 3 → ℝ)) :=
  (planeFields g omega axis sl mu m border power).bind fun fl =>
    (currentOf g omega axis sl m.polarity fl).map fun J => (J, fl.wavevector)

/-! ### Normalisation by a simulation, dipoles -/

/-- `cur_power` (500-503) of a source and the field it causes; `dx` is `np.real(dxes[0][0][0])`. -/
noncomputable def curPower (dx : ℝ) (J E : FieldT sh) : ℝ :=
  0.5 * (∑ p : Fin 3 × Fin sh.size, -((star (vecF J p) * vecF E p).re)) * dx ^ 3

/-- `eps_avg` (488-489). -/
noncomputable def sourceEps (J eps : FieldT sh) : ℂ :=
  (∑ p : Fin 3 × Fin sh.size, (‖vecF J p‖ : ℂ) * vecF eps p) / (∑ p : Fin 3 × Fin sh.size, (‖vecF J p‖ : ℂ))

/-- `normalize_source_by_sim` (452-508). `solve eps J` is the field the solver returns. `none`: the root of a negative
number or a division by zero (NaN). -/
noncomputable def normalizeBySim (solve : ℂ → FieldT sh → FieldT sh) (dx power : ℝ) (eps J : FieldT sh) : Option (FieldT sh) :=
  let cur := curPower dx J (solve (sourceEps J eps) J)
  if cur = 0 ∨ power / cur < 0 then none else some fun a c => (Real.sqrt (power / cur) : ℂ) * J a c

open Classical in
/-- `build_dipole_source` (`dipole.py` 7-35); `position` is inside the grid. -/
noncomputable def dipoleSource (omega : ℝ) (d : Dxes) (eps : FieldT sh) (position : Cell sh) (axis : Fin 3) (power : ℝ)
    (phase : ℂ) : FieldT sh :=
  let dx := (d.e axis (position axis).val)
  let epsSource := eps axis position
  let jNorm : ℂ := (Real.sqrt power : ℂ) / npSqrt (0.02661928208866846 * ((omega : ℂ) ^ 2 * dx ^ 3))
  fun a c => if a = axis ∧ c = position then 1 / epsSource * jNorm * phase / (‖phase‖ : ℂ) else 0

end Verif.Fdfd.FreeSpace
