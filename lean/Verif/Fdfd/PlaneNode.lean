import Verif.Fdfd.FreeSpace
import Verif.Fdfd.Adjoint
/-
Model of the plane-wave source of a plan, and of the simulation it is put in: `PlaneWaveSource.__call__` and `create_fdfd_simulation`,
spins/invdes/problem_graph/creator_em.py 81-146, 458-478. The normalisation by a simulation (132-142, C94) multiplies the current by a
number and is left out, and so are the names of solvers (434-455).
-/
namespace Verif.Fdfd.PlaneNode
open Verif.Fdfd.FreeSpace

/-- `border` (99-105): the widths in cells, rounded down, and a zero at the end; an empty list is like none. Widths are not negative. -/
noncomputable def nodeBorder (dx : ℝ) (border : List ℝ) : List Nat :=
  (if border ≠ [] then border.map fun b => ⌊b / dx⌋.toNat else [0, 0]) ++ [0]

/-- The border as `build_plane_wave_source` reads it, one number for each axis; `none` for the `IndexError` if there are fewer than three.
(Entries after the third are not read.) spins/fdfd_tools/free_space_sources.py 304-315 -/
def axisBorder (border : List Nat) : Option (Fin 3 → Nat) :=
  if border.length < 3 then none else some fun b => border.getD b.val 0

/-- The wavevector without the axes that have absorbing layers (125-130); `pml_layers` has six entries, two for each axis. -/
def zeroBloch (layers : List Int) (k : Fin 3 → ℝ) : Fin 3 → ℝ := fun b =>
  if layers.getD (2 * b.val) 0 ≠ 0 ∨ layers.getD (2 * b.val + 1) 0 ≠ 0 then 0 else k b

variable {sh : Shape}

/-- What a `PlaneWaveSource` gives: the current, and the Bloch vector if it is to overwrite the one of the simulation. 81-146 -/
noncomputable def planeNode (g : EpsGrid sh) (dx : ℝ) (layers : List Int) (omega : ℝ) (axis : Fin 3) (sl : Slc) (m : Aim)
    (border : List ℝ) (power : ℝ) (overwrite : Bool) : Option (FieldT sh × Option (Fin 3 → ℝ)) :=
  (axisBorder (nodeBorder dx border)).bind fun bd =>
    (planeWaveSource g omega axis sl none m bd power).map fun s =>
      (s.1, if overwrite then some (zeroBloch layers s.2) else none)

/-- `create_fdfd_simulation` (458-478): the Bloch vector of the source if there is one, else that of the simulation. -/
noncomputable def planeSim (hp : GHeap) (dxes : DxRef) (wlen : ℝ) (layers : List Int) (bloch : Option (Fin 3 → ℂ))
    (solver : Mat3 sh.size → VField sh.size → VField sh.size) (s : FieldT sh × Option (Fin 3 → ℝ)) : SimCfg sh where
  hp := hp
  dx := dxes
  wlen := wlen
  pml := .layers layers
  bloch := match s.2 with
    | some k => some fun b => (k b : ℂ)
    | none => bloch
  J := vecF s.1
  solver := solver

end Verif.Fdfd.PlaneNode
