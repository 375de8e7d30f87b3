import Mathlib.Data.Complex.BigOperators
import Mathlib.LinearAlgebra.Matrix.ConjTranspose
import Mathlib.Data.Matrix.Mul
import Mathlib.Analysis.SpecialFunctions.Trigonometric.Basic
/-
Model of the objectives that depend on the structure alone: `Fit2Eps` and `FabricationConstraint` of
`spins/invdes/problem/structure_objectives.py`; `DiscretePenaltyFun`, `FabricationPenalty` and
`create_fabrication_constraint` of `spins/invdes/problem_graph/creator_param.py`.

Simplifications: a parametrization is given by its structure and by the matrix its `calculate_gradient` returns. No
parametrization of the repository implements the gap and curvature penalties, so these are parameters.
-/
namespace Verif.Obj.Structure
open Matrix

/-- `self.eps_bg + self.S @ z - self.eps`. structure_objectives.py 26, 30 -/
noncomputable def fitErr {N m : Nat} (bg : Fin N → ℂ) (S : Matrix (Fin N) (Fin m) ℂ) (eps : Fin N → ℂ) (z : Fin m → ℝ) :
    Fin N → ℂ :=
  bg + (S *ᵥ fun j => (z j : ℂ)) - eps

/-- `Fit2Eps.calculate_objective_function`. structure_objectives.py 24-26 -/
noncomputable def fitValue {N m : Nat} (bg : Fin N → ℂ) (S : Matrix (Fin N) (Fin m) ℂ) (eps : Fin N → ℂ)
    (z : Fin m → ℝ) : ℝ :=
  ∑ i, ‖fitErr bg S eps z i‖ ^ 2

/-- `Fit2Eps.calculate_gradient`; `J` is `param.calculate_gradient()`. structure_objectives.py 28-32 -/
noncomputable def fitGrad {N m k : Nat} (bg : Fin N → ℂ) (S : Matrix (Fin N) (Fin m) ℂ) (eps : Fin N → ℂ)
    (z : Fin m → ℝ) (J : Matrix (Fin m) (Fin k) ℝ) : Fin k → ℝ :=
  fun a => ((((fun i => star (fitErr bg S eps z i)) ᵥ* S) ᵥ* J.map fun r => (r : ℂ)) a).re

/-- `DiscretePenaltyFun.eval`. creator_param.py 156-157 -/
noncomputable def discreteEval {ι : Type} [Fintype ι] (x : Fin 1 → ι → ℝ) : Unit → ℝ :=
  fun _ => ∑ i, x 0 i * (1 - x 0 i)

/-- `DiscretePenaltyFun.grad`. creator_param.py 159-162 -/
noncomputable def discreteGrad {ι : Type} [Fintype ι] (x : Fin 1 → ι → ℝ) (g : Unit → ℝ) : Option (Fin 1 → ι → ℝ) :=
  some fun _ i => g () * (1 - 2 * x 0 i)

/-- The gap and curvature penalties of a parametrization for a limit, and their gradients. -/
structure Penalties (k : Nat) where
  gap : ℝ → (Fin k → ℝ) → ℝ
  curv : ℝ → (Fin k → ℝ) → ℝ
  gapGrad : ℝ → (Fin k → ℝ) → Fin k → ℝ
  curvGrad : ℝ → (Fin k → ℝ) → Fin k → ℝ

/-- What `FabricationPenalty` holds: the two limits with their factors, and the method. creator_param.py 197-205 -/
structure FabPen where
  dGap : ℝ
  dCurv : ℝ
  method : Int
  gapFactor : ℝ
  curvFactor : ℝ

/-- `FabricationPenalty.__init__`. creator_param.py 178-205 -/
noncomputable def mkFabPen (fconGap fconCurv : ℝ) (method : Int) (applyFactors : Bool) : FabPen :=
  ⟨Real.pi / fconGap, Real.pi / fconCurv, method, if applyFactors then (1.2)⁻¹ else 1,
    if applyFactors then (1.1)⁻¹ else 1⟩

/-- `FabricationPenalty.calculate_objective_function`; `none` is the `ValueError`. creator_param.py 207-221 -/
noncomputable def FabPen.value {k : Nat} (f : FabPen) (P : Penalties k) (p : Fin k → ℝ) : Option ℝ :=
  if f.method = 0 then some (P.gap (f.gapFactor * f.dGap) p)
  else if f.method = 1 then some (P.curv (f.curvFactor * f.dCurv) p)
  else if f.method = 2 then some (P.curv (f.curvFactor * f.dCurv) p + P.gap (f.gapFactor * f.dGap) p)
  else none

/-- `FabricationPenalty.calculate_gradient`. creator_param.py 223-238 -/
noncomputable def FabPen.grad {k : Nat} (f : FabPen) (P : Penalties k) (p : Fin k → ℝ) : Option (Fin k → ℝ) :=
  if f.method = 0 then some (P.gapGrad (f.gapFactor * f.dGap) p)
  else if f.method = 1 then some (P.curvGrad (f.curvFactor * f.dCurv) p)
  else if f.method = 2 then some (P.curvGrad (f.curvFactor * f.dCurv) p + P.gapGrad (f.gapFactor * f.dGap) p)
  else none

/-- `methods[params.method]`. creator_param.py 251 -/
def methodOf (s : String) : Option Int :=
  if s = "gap" then some 0 else if s = "curv" then some 1 else if s = "gap_and_curve" then some 2 else none

/-- `create_fabrication_constraint`: lengths are counted in halves of the grid spacing `dx`. creator_param.py 244-256 -/
noncomputable def createFab (dx minCurv minGap : ℝ) (method : String) (applyFactors : Bool) : Option FabPen :=
  (methodOf method).map fun m => mkFabPen (minGap / (dx / 2)) (minCurv / (dx / 2)) m applyFactors

/-- `FabricationConstraint.calculate_objective_function` of the old-style problems. structure_objectives.py 63-75 -/
noncomputable def oldFabValue {k : Nat} (d w : ℝ) (method : Int) (P : Penalties k) (p : Fin k → ℝ) : ℝ :=
  if method = 1 then w * P.gap (Real.pi / (1.20 * d)) p
  else if method = 2 then
    let curv := w * P.curv (Real.pi / (1.15 * d)) p
    let gap := w * P.gap (Real.pi / (1.20 * d)) p
    curv + gap
  else w * P.gap (Real.pi / (1.20 * d)) p

/-- `FabricationConstraint.calculate_gradient`. structure_objectives.py 77-89 -/
noncomputable def oldFabGrad {k : Nat} (d w : ℝ) (method : Int) (P : Penalties k) (p : Fin k → ℝ) : Fin k → ℝ :=
  if method = 1 then w • P.gapGrad (Real.pi / (1.20 * d)) p
  else if method = 2 then
    let curv := w • P.curvGrad (Real.pi / (1.15 * d)) p
    let gap := w • P.gapGrad (Real.pi / (1.20 * d)) p
    curv + gap
  else w • P.gapGrad (Real.pi / (1.20 * d)) p

end Verif.Obj.Structure
