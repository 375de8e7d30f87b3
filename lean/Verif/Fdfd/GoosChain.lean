import Verif.Fdfd.Adjoint
import Verif.Render.Pixel
import Verif.Obj.Nodes
/-
Model of the chain from the values of a pixelated shape to an objective of overlaps in goos: `RenderShape` and
`PixelatedContShapeFlowImpl` of `spins/goos_sim/maxwell/render.py`, `SimulateNode` of `simulate.py`, `AbsoluteValue` of
`spins/goos/math.py`. The grids of `gridlock` are made with `dtype=complex` (`gridlock/grid.py` 390-423, 943-944), so the permittivity that
`RenderShape` hands on is a complex array for all materials: `np.isrealobj(eps)` is false in `SimulateNode.grad` (simulate.py 572),
and `np.iscomplexobj(grid_vals)` is true in the gradient of the rendering (render.py 156).
-/
namespace Verif.Fdfd
variable {n m : Nat}

/-- The values of the pixels, flattened, as a function on all indices. -/
def pixelValues (z : Fin m → ℝ) : Nat → ℝ := fun c => if h : c < m then z ⟨c, h⟩ else 0

/-- One component of a grid, flattened, as a function on all indices. -/
noncomputable def component (g : VField n) (a : Fin 3) : Nat → ℂ := fun r => if h : r < n then g (a, ⟨r, h⟩) else 0

/-- `RenderShape.eval` (render.py 50-67) for a scene with a pixelated shape: `base` is what is drawn, which does not depend on the
values of the pixels, and `mats` are the rendering matrices of the three components; the extra grid is added to it (62-65, 125-136). -/
noncomputable def renderEval (base : VField n) (mats : Fin 3 → Nat → Nat → ℝ) (contrast : ℂ) (z : Fin m → ℝ) : VField n := fun p =>
  base p + Render.pixEval (mats p.1) m contrast (pixelValues z) p.2

/-- `RenderShape.grad` (render.py 69-74, 139-159): the three components in order, with an array of complex type. -/
noncomputable def renderGrad (mats : Fin 3 → Nat → Nat → ℝ) (contrast : ℂ) (g : VField n) : Fin m → ℝ := fun j =>
  Render.pixGrad n contrast true [(mats 0, component g 0), (mats 1, component g 1), (mats 2, component g 2)] j

/-- The backward pass (C05) through `RenderShape` and `SimulateNode`, right after the forward pass (C50), for the gradients `g` with
respect to the overlaps. -/
noncomputable def goosBackward {sh : Shape} {k : Nat} (c : SimCfg sh) (base : VField sh.size) (mats : Fin 3 → Nat → Nat → ℝ)
    (contrast : ℂ) (ws : Fin k → VField sh.size) (z : Fin m → ℝ) (g : Fin k → ℂ) : Option (Fin m → ℝ) :=
  (simFields c (renderEval base mats contrast z)).bind fun fields =>
    (goosGrad c ws fields (renderEval base mats contrast z) g false).map (renderGrad mats contrast)

/-- The gradients with respect to the overlaps `o` if the objective has the derivatives `w` with respect to their absolute values
(goos/math.py 363-378); `none` if one is dark. -/
noncomputable def absBackward {k : Nat} (o : Fin k → ℂ) (w : Fin k → ℝ) : Option (Fin k → ℂ) :=
  open Classical in
  if ∀ i, (Obj.goosAbsGrad (ι := Unit) true (fun _ _ => o i) (fun _ => w i)).isSome then
    some fun i => ((Obj.goosAbsGrad (ι := Unit) true (fun _ _ => o i) (fun _ => w i)).getD fun _ _ => 0) 0 ()
  else none

/-- The backward pass for an objective of the absolute values of the overlaps. -/
noncomputable def goosAbsBackward {sh : Shape} {k : Nat} (c : SimCfg sh) (base : VField sh.size) (mats : Fin 3 → Nat → Nat → ℝ)
    (contrast : ℂ) (ws : Fin k → VField sh.size) (z : Fin m → ℝ) (w : Fin k → ℝ) : Option (Fin m → ℝ) :=
  (goosEval c ws (renderEval base mats contrast z)).bind fun o =>
    (absBackward o w).bind (goosBackward c base mats contrast ws z)

end Verif.Fdfd
