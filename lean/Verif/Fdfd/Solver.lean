import Verif.Fdfd.Operators
import Verif.Fdfd.Grid
/-
Model of `spins/fdfd_solvers/local_matrix_solvers.py` (`LocalMatrixSolver.solve`) and of
`spins/fdfd_tools/solvers.py` (`generic`). The inner matrix solver (`solve_matrix_equation`, `matrix_solver`:
scipy's spsolve, qmr, bicg) is an arbitrary function.
-/
namespace Verif.Fdfd
open Matrix

/-- The cell widths `dxes` holds. -/
noncomputable def gridOf (hp : GHeap) (dx : DxRef) : Dxes :=
  ⟨fun a i => (hp.read dx.e a).getD i 0, fun a i => (hp.read dx.h a).getD i 0⟩

/-- `shape = [len(dx) for dx in dxes[0]]`. -/
def shapeOf (hp : GHeap) (dx : DxRef) : Shape := fun a => (hp.read dx.e a).length

/-- The part shared by `LocalMatrixSolver.solve` (57-83) and `generic` (93-112): build the preconditioned system,
solve it and undo the preconditioning. -/
noncomputable def solveSystem {sh : Shape} (solver : Mat3 sh.size → VField sh.size → VField sh.size)
    (omega : ℂ) (d : Dxes) (J : VField sh.size) (A0 : Mat3 sh.size) (adjoint : Bool) : VField sh.size :=
  let b0 : VField sh.size := (-Complex.I * omega) • J
  let (Pl, Pr) := eFullPreconditioners sh d
  if adjoint then
    let A := (Pl * A0 * Pr)ᴴ
    let b := Prᴴ *ᵥ b0
    Plᴴ *ᵥ solver A b
  else
    let A := Pl * A0 * Pr
    let b := Pl *ᵥ b0
    Pr *ᵥ solver A b

/-- `solvers.generic` (52-112). -/
noncomputable def solveGeneric (sh : Shape) (solver : Mat3 sh.size → VField sh.size → VField sh.size)
    (omega : ℂ) (d : Dxes) (J epsilon : VField sh.size) (mu : Option (VField sh.size))
    (pec pmc : Option (Fin 3 × Fin sh.size → Bool)) (adjoint : Bool) : Option (VField sh.size) :=
  (eFull sh omega d epsilon mu pec pmc 0 0).map fun A0 => solveSystem solver omega d J A0 adjoint

/-- `(v is not None) and np.any(v)`. -/
noncomputable def anyNonzero (v : Option (List ℂ)) : Bool :=
  match v with
  | none => false
  | some l => open Classical in decide (∃ x ∈ l, x ≠ 0)

/-- `LocalMatrixSolver.solve` (33-83); `none` is an exception. The grid is in the heap because
`apply_scpml` copies it. The number of cells does not change, so that it is fixed beforehand: `sh` has to be
`shapeOf hp dx`. -/
noncomputable def solveLocal (sh : Shape) (solver : Mat3 sh.size → VField sh.size → VField sh.size)
    (hp : GHeap) (dx : DxRef) (omega : ℂ) (J epsilon : VField sh.size) (pml : Pml)
    (mu : Option (VField sh.size)) (pec pmc : Option (Fin 3 × Fin sh.size → Bool))
    (pemc : Option (List ℂ)) (bloch : Option (Fin 3 → ℂ)) (symmetry : Option (List ℂ)) (adjoint : Bool) :
    Option (VField sh.size) :=
  if anyNonzero symmetry then none
  else if anyNonzero pemc then none
  else
    let k : Fin 3 → ℂ := bloch.getD 0
    (applyScpml hp dx pml omega).bind fun (hp', dx') =>
      let d := gridOf hp' dx'
      (eFull sh omega d epsilon mu pec pmc k 0).map fun A0 => solveSystem solver omega d J A0 adjoint

end Verif.Fdfd
