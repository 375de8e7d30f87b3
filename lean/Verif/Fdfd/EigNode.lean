import Verif.Fdfd.Operators
/-
Model of `SimulateEigNode` of `spins/goos_sim/maxwell/simulate.py` (668-828): the frequency of a resonance and its gradient. The solver
is a parameter: it returns lists of modes and frequencies, as `MaxwellSolver.solve` does for 'Jacobi-Davidson' (`fdfd_solvers/maxwell.py`
407-417). The node keeps the results of the last permittivity (738, 786); here they are computed from the permittivity, which is what the
gradient uses after a forward pass (in a gradient without a forward pass, `before_adjoint_sim` is called without its second
argument and raises, 797).
-/
namespace Verif.Fdfd
open Matrix
variable {n : Nat}

/-- What an eigensolver returns: vectors and frequencies. -/
abbrev EigSolver (n : Nat) := VField n → List (VField n) × List ℂ

/-- `fields[0]` and `np.real(omega[0])` (simulate.py 765-767, 809-811); `none` for the error on empty lists. -/
def eigRun (solve : EigSolver n) (eps : VField n) : Option (VField n × ℝ) :=
  (solve eps).1.head?.bind fun f => (solve eps).2.head?.map fun w => (f, w.re)

/-- The outputs of the node: `EigenValue`, or one of the others. simulate.py 857-871 -/
inductive EigOut
  | value
  | other

/-- The value of an `EigenValue` (simulate.py 870-871). -/
def eigValue (solve : EigSolver n) (eps : VField n) : Option ℝ := (eigRun solve eps).map (·.2)

/-- `domega_deps` (simulate.py 816-821). -/
noncomputable def domegaDeps (fields : VField n) (omega : ℝ) (eps : VField n) : Fin 3 × Fin n → ℝ := fun p =>
  (-(omega : ℂ) / 2 * 1 / (∑ q, star (fields q) * fields q) * star (fields p) * (eps p)⁻¹ * fields p).re

/-- The loop that finds the gradient with respect to the frequency (simulate.py 824-826): a later output replaces an earlier one. `none`
for the error if there is no `EigenValue`, or if one of them has no gradient. -/
def pickGrad : Option ℝ → List (EigOut × Option ℝ) → Option ℝ
  | acc, [] => acc
  | _, (.value, some g) :: l => pickGrad (some g) l
  | _, (.value, none) :: _ => none
  | acc, (.other, _) :: l => pickGrad acc l

/-- `SimulateEigNode.grad` (simulate.py 775-828). -/
noncomputable def eigNodeGrad (solve : EigSolver n) (eps : VField n) (outs : List (EigOut × Option ℝ)) :
    Option (Fin 3 × Fin n → ℝ) :=
  (eigRun solve eps).bind fun r => (pickGrad none outs).map fun w p => w * domegaDeps r.1 r.2 eps p

end Verif.Fdfd
