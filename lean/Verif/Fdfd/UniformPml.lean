import Verif.Fdfd.Grid
import Mathlib.Analysis.Real.Sqrt
/-
Model of `uniform_grid_scpml`, spins/fdfd_tools/grid.py 38-86, and of `prepare_s_function` with its arguments, 15-35. Exact arithmetic.
-/
namespace Verif.Fdfd.UniformPml

/-- `prepare_s_function(ln_R, m)` (15-35), for a whole order `m`. -/
noncomputable def sFactor (lnR : ℝ) (m : Nat) (x : ℝ) : ℝ := (m + 1) * lnR / 2 * x ^ m

/-- `l(u, n, t)`: the normalised distance into the layers (67-69). -/
noncomputable def layerDist (u n t : ℝ) : ℝ := (max (t - u) 0 + max (u - (n - t)) 0) / t

/-- `dx_a[k]` and `dx_b[k]` for one axis (77-85): `s` cells, layers of `th` cells, and the positions of the cells. `omega` is the real part
of the frequency. -/
noncomputable def uniformAxis (sf : ℝ → ℝ) (s : Nat) (th : Int) (omega eps : ℝ) : List ℂ × List ℂ :=
  if 0 < th then
    ((List.range s).map fun i : Nat => 1 + Complex.I * (sf (layerDist i s th) : ℂ) / ((√eps * omega : ℝ) : ℂ),
     (List.range s).map fun i : Nat => 1 + Complex.I * (sf (layerDist (i + 1 / 2) s th) : ℂ) / ((√eps * omega : ℝ) : ℂ))
  else (List.replicate s 1, List.replicate s 1)

/-- `uniform_grid_scpml` (38-86) for three thicknesses: the widths of the axis `k` in `dx_a` and `dx_b`. -/
noncomputable def uniformGridScpml (shape : Fin 3 → Nat) (th : Fin 3 → Int) (omega eps : ℝ) (sf : Option (ℝ → ℝ)) (k : Fin 3) :
    List ℂ × List ℂ :=
  uniformAxis (sf.getD (sFactor (-16) 4)) (shape k) (th k) omega eps

end Verif.Fdfd.UniformPml
