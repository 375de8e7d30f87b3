import Verif.Fdfd.Adjoint
import Verif.Fdfd.WaveguideSource
import Verif.Render.Region
import Verif.Render.Direction
/-
Model of `PowerTransmissionFunction` (`spins/invdes/problem_graph/functions/poynting.py`), the objective "power through a
plane" of plans.
-/
namespace Verif.Fdfd
open Matrix
variable {sh : Shape}

/-- The arguments of `PowerTransmissionFunction`: the wavelength, the spacings of the grid (`simspace.dxes`), the slices, the
axis and the polarity. The slices are pairs of indices that are not negative, as `create_region_slices` returns them. poynting.py
49-85 -/
structure PlaneCfg where
  wlen : ℝ
  d : Dxes
  slices : Slc
  axis : Fin 3
  polarity : Int

/-- `self._omega`. poynting.py 70 -/
noncomputable def PlaneCfg.omega (c : PlaneCfg) : ℂ := ((2 * Real.pi / c.wlen : ℝ) : ℂ)

open Classical in
/-- `self._filter_vec`: `vec` of three arrays of zeros, with ones at the slices of the array number `axis`. The position of a
cell in the vector is that of `vec` (C18). poynting.py 83-85 -/
noncomputable def filterVec (sh : Shape) (c : PlaneCfg) : VField sh.size := fun p =>
  if p.1 = c.axis ∧ ∀ a, c.slices.lo a ≤ (cellAt p.2 a).val ∧ (cellAt p.2 a).val < c.slices.hi a then 1 else 0

/-- `PowerTransmissionFunction.eval`. poynting.py 88-95 -/
noncomputable def planePower (c : PlaneCfg) (efield : VField sh.size) : Option ℝ :=
  (e2h sh c.omega c.d none none 0 0).bind fun opE2h =>
    let hfield := opE2h *ᵥ efield
    (poyntingChewECross sh efield c.d).map fun opECross =>
      let poynting : Fin 3 × Fin sh.size → ℝ := fun p => 0.5 * ((opECross *ᵥ fun q => star (hfield q)) p).re
      (c.polarity : ℝ) * ∑ p, poynting p * (filterVec sh c p).re

/-- `PowerTransmissionFunction.grad`, with `mu = 1`. poynting.py 97-112 -/
noncomputable def planeGrad (c : PlaneCfg) (efield : VField sh.size) (gradVal : ℂ) : Option (VField sh.size) :=
  (e2h sh c.omega c.d none none 0 0).bind fun opE2h =>
    (curlE sh c.d 0 0).bind fun opCurlE =>
      let hfield := opE2h *ᵥ efield
      (poyntingChewECross sh efield c.d).bind fun opECross =>
        (poyntingChewHCross sh hfield c.d).map fun opHCross =>
          let mu : ℂ := 1
          let gradMat : Mat3 sh.size :=
            (-0.25 : ℂ) • ((1 / (Complex.I * c.omega * mu)) • (opECross.map star * opCurlE) + opHCross.map star)
          ((gradVal * c.polarity) • filterVec sh c) ᵥ* gradMat

/-- `create_region_slices` on the three axes; `none` if one of them raises. grid_utils.py 13-68 -/
noncomputable def regionSlices (edges : Fin 3 → List ℝ) (center extents : Fin 3 → ℝ) : Option Slc :=
  (Render.regionSlice (edges 0) (center 0) (extents 0)).bind fun s0 =>
    (Render.regionSlice (edges 1) (center 1) (extents 1)).bind fun s1 =>
      (Render.regionSlice (edges 2) (center 2) (extents 2)).map fun s2 =>
        ⟨![s0.1, s1.1, s2.1], ![s0.2, s1.2, s2.2]⟩

/-- `create_power_transmission_function`. `edges` is `simspace.edge_coords`. poynting.py 116-127 -/
noncomputable def createPlane (edges : Fin 3 → List ℝ) (d : Dxes) (wlen : ℝ) (center extents normal : Fin 3 → ℝ) :
    Option PlaneCfg :=
  (regionSlices edges center extents).bind fun sl =>
    (Render.axisvec2axis normal).bind fun axis =>
      (Render.axisvec2polarity normal).map fun (polarity : SignType) => ⟨wlen, d, sl, axis, (polarity : Int)⟩

end Verif.Fdfd
