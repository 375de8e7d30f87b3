import Verif.Fdfd.WaveguideSource
/-
Model of the overlap vectors of waveguide modes: `spins/fdfd_solvers/waveguide_mode.py` 478-547 (`compute_overlap_e`), 933-1010
(`build_overlap`) and the Poynting operators with averages, `spins/fdfd_tools/operators.py` 731-799. As in `WaveguideSource`, the
mode of the cross-section is an input. Fields of the grid are `FieldT`, vectors are indexed by component and position; `vec` is
C18.
-/
namespace Verif.Fdfd
open Matrix
variable {sh : Shape}

/-- `np.split(e, 3)[a] * dx.flatten(order='F')` as a diagonal matrix (operators.py 752-760, 786-795). -/
noncomputable def weighted (sh : Shape) (e : VField sh.size) (dx : Fin 3 → Nat → ℂ) (a : Fin 3) : Mat sh.size :=
  Matrix.diagonal fun i => e (a, i) * (meshFlat sh dx a).getD i.val 0

/-- `poynting_e_cross` (operators.py 731-768). -/
noncomputable def poyntingECross (sh : Shape) (e : VField sh.size) (d : Dxes) : Option (Mat3 sh.size) :=
  (forAxes fun i => avgf i sh).bind fun f =>
    (forAxes fun i => avgb i sh).map fun b =>
      let dbg : Fin 3 → Mat sh.size := fun a => diags sh.size (meshFlat sh d.h a)
      let E := weighted sh e d.e
      bmat ![![0, -(f 0 * E 2 * b 2 * dbg 1), f 0 * E 1 * b 1 * dbg 2],
        ![f 1 * E 2 * b 2 * dbg 0, 0, -(f 1 * E 0 * b 0 * dbg 2)],
        ![-(f 2 * E 1 * b 1 * dbg 0), f 2 * E 0 * b 0 * dbg 1, 0]]

/-- `poynting_h_cross` (operators.py 770-799). -/
noncomputable def poyntingHCross (sh : Shape) (h : VField sh.size) (d : Dxes) : Option (Mat3 sh.size) :=
  (forAxes fun i => avgf i sh).bind fun f =>
    (forAxes fun i => avgb i sh).map fun b =>
      let dag : Fin 3 → Mat sh.size := fun a => diags sh.size (meshFlat sh d.e a)
      let H := weighted sh h d.h
      bmat ![![0, -(b 1 * H 2 * f 0 * dag 1), b 2 * H 1 * f 0 * dag 2],
        ![b 0 * H 2 * f 1 * dag 0, 0, -(b 2 * H 0 * f 1 * dag 2)],
        ![-(b 0 * H 1 * f 2 * dag 0), b 1 * H 0 * f 2 * dag 1, 0]]

/-- `np.real(dx).cumsum()[n]` (512-513). -/
noncomputable def cumDx (dx : Nat → ℂ) (n : Nat) : ℂ := ∑ m ∈ Finset.range (n + 1), ((dx m).re : ℂ)

/-- `phase * F[k][cross_plane]` (508-523): the plane of the slice, continued along the axis. -/
noncomputable def continued (axis : Fin 3) (sl : Slc) (dx : Nat → ℂ) (iphi : ℂ) (F : FieldT sh) : FieldT sh := fun k c =>
  Complex.exp (iphi * (cumDx dx (c axis) - cumDx dx (sl.lo axis))) *
    readCell (F k) fun b => if b = axis then sl.lo axis else (c b).val

open Classical in
/-- `dn @ ds` (526-535). -/
noncomputable def sliceVec (sh : Shape) (axis : Fin 3) (sl : Slc) : VField sh.size := fun p =>
  if p.1 = axis ∧ ∀ a, sl.lo a ≤ (cellAt p.2 a).val ∧ (cellAt p.2 a).val < sl.hi a then 1 else 0

/-- `vec` of a field. -/
noncomputable def flat (f : FieldT sh) : VField sh.size := fun p => f p.1 (cellAt p.2)

/-- `compute_overlap_e` (478-547). -/
noncomputable def computeOverlapE (E H : FieldT sh) (wavenumber omega : ℂ) (d : Dxes) (axis : Fin 3) (polarity : Int) (sl : Slc)
    (mu : Option (VField sh.size)) : Option (VField sh.size) :=
  let iphi := -(polarity : ℂ) * Complex.I * wavenumber
  let Ee := flat (continued axis sl (d.e axis) iphi E)
  let He := flat (continued axis sl (d.h axis) iphi H)
  (e2h sh omega d mu none 0 0).bind fun T =>
    (poyntingHCross sh He d).bind fun hCross =>
      (poyntingECross sh Ee d).map fun eCross =>
        let overlap := sliceVec sh axis sl ᵥ* (-hCross + eCross * T)
        let normFactor : ℝ := ‖overlap ⬝ᵥ Ee‖
        fun p => overlap p / normFactor

/-- `source_slices` (974-981): the last or the first plane of the slices. -/
def overlapSlices (sl : Slc) (axis : Fin 3) (polarity : Int) : Slc :=
  if polarity = 1 then ⟨fun b => if b = axis then sl.hi axis - 1 else sl.lo b, sl.hi⟩
  else ⟨sl.lo, fun b => if b = axis then sl.lo axis + 1 else sl.hi b⟩

/-- `build_overlap` (933-1010) from the fields of the cross-section on, with the wavenumber of `solve_waveguide_mode_2d`; `phase`
is the phase of the largest component of the electric field. `none` for the exception. -/
noncomputable def buildOverlap (omega : ℂ) (d : Dxes) (mu : Option (FieldT sh)) (axis : Fin 3) (polarity : Int) (sl : Slc)
    (power : ℝ) (phase : ℂ) (wavenumber : ℂ) (E2 H2 : SecField) : Option (VField sh.size) :=
  if polarity ≠ 1 ∧ polarity ≠ -1 then none
  else
    let E : FieldT sh := expandSec axis sl (adjustE polarity E2)
    let H : FieldT sh := expandSec axis sl (adjustH d axis polarity sl wavenumber H2)
    (computeOverlapE (fun k c => E k c / phase) (fun k c => H k c / phase) wavenumber omega d axis polarity
      (overlapSlices sl axis polarity) (mu.map flat)).map fun C => fun p => C p * ((Real.sqrt power : ℝ) : ℂ)

end Verif.Fdfd
