import Verif.Plan.InvGradient
import Verif.Fdfd.GoosChain
import Verif.Cubic.Creator
/-
The function of a variable that a goos plan for a pixelated or cubic shape computes, and its gradient: from the variable through
the shape (`PixelatedContShape`, `spins/goos/shapes.py` 296-340; `OldStyleParametrization`, `spins/goos/compat.py` 14-84), the rendering, the
simulations and the absolute values of the overlaps (`Verif.Fdfd.GoosChain`) to the objective. How the passes over the graph put the nodes
together is C01 and C05, and what the optimizer does with the functions is C115.
-/
namespace Verif.Plan.Goos
open Verif.Plan.Inv Verif.Cubic Verif.Fdfd

variable {m : Nat}

/-- A simulation of a scene with the shape, and its overlaps: `SimulateNode` (goos_sim/maxwell/simulate.py 441-575) behind `RenderShape`
(goos_sim/maxwell/render.py 50-74). -/
structure GoosSim (sh : Shape) (m : Nat) where
  c : SimCfg sh
  base : VField sh.size
  mats : Fin 3 → Nat → Nat → ℝ
  contrast : ℂ
  k : Nat
  ws : Fin k → VField sh.size

/-- The absolute values of the overlaps (goos/math.py 358-361). Values of another size raise. -/
noncomputable def GoosSim.mags {sh : Shape} (o : GoosSim sh m) (s : List ℝ) : Option (Fin o.k → ℝ) :=
  if s.length = m then (goosEval o.c o.ws (renderEval o.base o.mats o.contrast fun j : Fin m => s.getD j 0)).map fun a i => ‖a i‖
  else none

/-- The backward pass of a simulation for the derivatives `w` with respect to the absolute values. -/
noncomputable def GoosSim.backward {sh : Shape} (o : GoosSim sh m) (s : List ℝ) (w : Fin o.k → ℝ) : Option (Fin m → ℝ) :=
  goosAbsBackward o.c o.base o.mats o.contrast o.ws (fun j => s.getD j 0) w

/-- An objective of the absolute values of overlaps of several simulations of the shape (other wavelengths, other sources); on top of
the absolute values any nodes with the value `Φ` and the derivatives `dΦ`. -/
structure GoosFn (sh : Shape) (m : Nat) where
  q : Nat
  sims : Fin q → GoosSim sh m
  Φ : ((i : Fin q) → Fin (sims i).k → ℝ) → ℝ
  dΦ : ((i : Fin q) → Fin (sims i).k → ℝ) → (i : Fin q) → Fin (sims i).k → ℝ

/-- The absolute values of all simulations; an exception in one is an exception. -/
noncomputable def GoosFn.mags {sh : Shape} (o : GoosFn sh m) (s : List ℝ) : Option ((i : Fin o.q) → Fin (o.sims i).k → ℝ) :=
  open Classical in
  if h : ∀ i, ((o.sims i).mags s).isSome then some fun i => ((o.sims i).mags s).get (h i) else none

/-- Value and gradient with respect to the values of the pixels. The backward pass adds up what the simulations pass to the shape
(goos/graph_executor.py 300-312). -/
noncomputable def GoosFn.fn {sh : Shape} (o : GoosFn sh m) : StructFn m where
  value s := (o.mags s).map o.Φ
  grad s := (o.mags s).bind fun a =>
    (List.finRange o.q).foldlM (fun (acc : Fin m → ℝ) i => ((o.sims i).backward s (o.dΦ a i)).map (acc + ·)) 0

/-- The value for a variable that holds the pixels: `PixelatedContShape.eval` hands the array on. shapes.py 323-330 -/
def pixelValue (o : StructFn m) (v : List ℝ) : Option ℝ := o.value v

/-- Its gradient, shapes.py 332-340. -/
def pixelGrad (o : StructFn m) (v : List ℝ) : Option (List ℝ) := (o.grad v).map List.ofFn

/-- The value for the variable of a cubic shape, compat.py 58-70. -/
noncomputable def cubicValue (P : CubicParam) (o : StructFn m) (v : List ℝ) : Option ℝ :=
  (evalPixels P v).toOption.bind o.value

/-- Its gradient, compat.py 72-84. -/
noncomputable def cubicGrad (P : CubicParam) (o : StructFn m) (v : List ℝ) : Option (List ℝ) :=
  (evalPixels P v).toOption.bind fun s => (o.grad s).bind fun g => (gradPixels P v (List.ofFn g)).toOption

end Verif.Plan.Goos
