import Verif.Fdfd.WaveguideOverlap
/-
Model of `compute_transmission`, `spins/fdfd_solvers/waveguide_mode.py` 550-595. Fields and vectors are as in `WaveguideOverlap`.
-/
namespace Verif.Fdfd
open Matrix
variable {sh : Shape}

/-- `compute_transmission` (550-595); `none` is the `ValueError`. The Bloch vector is the default, zero. -/
noncomputable def computeTransmission (E H : FieldT sh) (axis : Fin 3) (omega : ℂ) (d : Dxes) (sl : Slc)
    (mu : Option (VField sh.size)) : Option ℝ :=
  if (sl.hi axis : Int) - sl.lo axis ≠ 1 then none
  else
    (e2h sh omega d mu none 0 0).bind fun T =>
      (poyntingHCross sh (flat H) d).bind fun hCross =>
        (poyntingECross sh (flat E) d).map fun eCross =>
          ‖(sliceVec sh axis sl ᵥ* (-hCross + eCross * T)) ⬝ᵥ flat E‖

end Verif.Fdfd
