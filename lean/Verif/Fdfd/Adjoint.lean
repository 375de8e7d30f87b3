import Verif.Fdfd.Solver
import Mathlib.Analysis.SpecialFunctions.Trigonometric.Basic
/-
Model of the adjoint gradients:
* `spins/goos_sim/maxwell/simulate.py`: `SimulateNode.eval`, `SimulateNode.grad` with waveguide overlaps as outputs,
* `spins/invdes/problem_graph/creator_em.py`: `FdfdSimulation.eval`, `FdfdSimulation.grad`,
* `spins/invdes/problem/simulation.py`: `AdjointFdfdSimulation._run_solver`, whose transformation
  `spins/fdfd_solvers/maxwell.py` repeats (177-208, 370-376),
* `spins/invdes/problem/emobjective.py`: `EmObjective.calculate_df_dz`.
-/
namespace Verif.Fdfd
open Matrix

/-- What a simulation object holds: the grid, wavelength, absorbing layers, Bloch vector, source and the inner solver
of its `LocalMatrixSolver`. Simplification: the source is a fixed vector. (`WaveguideModeSource` and `DipoleSource` of
goos compute theirs on first use and keep it, `GaussianSource` recomputes it from each permittivity.) -/
structure SimCfg (sh : Shape) where
  hp : GHeap
  dx : DxRef
  wlen : ℝ
  pml : Pml
  bloch : Option (Fin 3 → ℂ)
  J : VField sh.size
  solver : Mat3 sh.size → VField sh.size → VField sh.size

/-- `omega = 2 * np.pi / wlen`. -/
noncomputable def SimCfg.omega {sh : Shape} (c : SimCfg sh) : ℂ := ((2 * Real.pi / c.wlen : ℝ) : ℂ)

/-- `solver.solve(omega=..., dxes=..., epsilon=eps, mu=None, J=J, pml_layers=..., bloch_vec=..., adjoint=...)`. -/
noncomputable def SimCfg.solve {sh : Shape} (c : SimCfg sh) (eps J : VField sh.size) (adjoint : Bool) :
    Option (VField sh.size) :=
  solveLocal sh c.solver c.hp c.dx c.omega J eps c.pml none none none none c.bloch none adjoint

/-- The fields of `SimulateNode.eval` (503-532) and `FdfdSimulation._simulate` (365-373), without the caches. -/
noncomputable def simFields {sh : Shape} (c : SimCfg sh) (eps : VField sh.size) : Option (VField sh.size) :=
  c.solve eps c.J false

/-- `WaveguideModeOverlapImpl.eval` (336-337) on flattened arrays. -/
noncomputable def overlapEval {n : Nat} (w fields : VField n) : ℂ := ∑ p, w p * fields p

/-- `SimulateNode.eval` (493-538) with overlaps `ws` as outputs. -/
noncomputable def goosEval {sh : Shape} (c : SimCfg sh) {m : Nat} (ws : Fin m → VField sh.size)
    (eps : VField sh.size) : Option (Fin m → ℂ) :=
  (simFields c eps).map fun f k => overlapEval (ws k) f

/-- The adjoint source: the loop over outputs (553-554) with `WaveguideModeOverlapImpl.before_adjoint_sim`
(339-341). -/
noncomputable def goosAdjointSource {n m : Nat} (ws : Fin m → VField n) (g : Fin m → ℂ) : VField n :=
  (List.finRange m).foldl (fun src k => src + fun p => star (g k * ws k p)) 0

/-- `SimulateNode.grad` (540-575). `fields` is `self._last_results.fields`, `isReal` is `np.isrealobj(eps)`. -/
noncomputable def goosGrad {sh : Shape} (c : SimCfg sh) {m : Nat} (ws : Fin m → VField sh.size)
    (fields eps : VField sh.size) (g : Fin m → ℂ) (isReal : Bool) : Option (VField sh.size) :=
  (c.solve eps (goosAdjointSource ws g) true).map fun adj =>
    let grad : VField sh.size := fun p => -Complex.I * c.omega * star (adj p) * fields p
    if isReal then fun p => ((2 * (grad p).re : ℝ) : ℂ) else grad

/-- `FdfdSimulation.grad` (311-333), without the caches. -/
noncomputable def invdesGrad {sh : Shape} (c : SimCfg sh) (eps g : VField sh.size) (isReal : Bool) :
    Option (VField sh.size) :=
  (simFields c eps).bind fun efields =>
    (c.solve eps (fun p => star (g p) / (-Complex.I * c.omega)) true).map fun d =>
      let total : VField sh.size := fun p => star (d p) * (c.omega ^ 2 * efields p)
      if isReal then fun p => (((total p).re : ℝ) : ℂ) else total

/-- `[[np.conj(dx) for dx in grid] for grid in dxes]`. -/
noncomputable def Dxes.conj (d : Dxes) : Dxes := ⟨fun a i => star (d.e a i), fun a i => star (d.h a i)⟩

/-- `AdjointFdfdSimulation._run_solver` (188-250 of `simulation.py`; also 177-206 and 390-393 of `maxwell.py`): the
adjoint system is solved through the system with conjugated coefficients. `solve` is the underlying forward
solver, with arguments omega, dxes, epsilon, mu and J. -/
noncomputable def conjugateAdjoint (sh : Shape)
    (solve : ℂ → Dxes → VField sh.size → Option (VField sh.size) → VField sh.size → VField sh.size)
    (omega : ℂ) (d : Dxes) (eps : VField sh.size) (mu : Option (VField sh.size)) (J : VField sh.size) :
    VField sh.size :=
  let dc := d.conj
  let s := pSquared sh dc
  let newJ : VField sh.size := fun p => J p / star (s p)
  let y := solve (star omega) dc (fun p => star (eps p)) (mu.map fun m p => star (m p)) newJ
  fun p => y p * star (s p)

/-- `EmObjective.calculate_df_dz` (43-54 of `emobjective.py`) for the selection matrix `S`. `adjoint` is the adjoint
simulation at the current structure. -/
noncomputable def emDfDz {n m : Nat} (omega : ℂ) (S : Matrix (Fin 3 × Fin n) (Fin m) ℂ)
    (adjoint : VField n → VField n) (efields dfdx : VField n) : Fin m → ℝ :=
  let B : Matrix (Fin 3 × Fin n) (Fin m) ℂ := (omega ^ 2 • Matrix.diagonal efields) * S
  let d := adjoint (fun p => star (dfdx p) / (-Complex.I * omega))
  fun j => 2 * (((fun p => star (d p)) ᵥ* B) j).re

end Verif.Fdfd
