import Verif.Fdfd.Adjoint
/-
Model of the functions between the structure and the objective of a problem graph: `spins/invdes/problem_graph/creator_em.py`
481-542 (`Epsilon`), 671-712 (`OverlapFunction`), 726-774 (`DiffEpsilon`), and `AbsoluteValue` of
`spins/invdes/problem/objective.py` 653-673 for a single number.
-/
namespace Verif.Fdfd
open Matrix
variable {n m : Nat}

/-- `Epsilon.eval` (507-517). -/
noncomputable def epsilonEval (bg : VField n) (S : Matrix (Fin 3 × Fin n) (Fin m) ℂ) (z : Fin m → ℝ) : VField n :=
  bg + S *ᵥ fun j => (z j : ℂ)

/-- `Epsilon.grad` (519-539). -/
noncomputable def epsilonGrad (S : Matrix (Fin 3 × Fin n) (Fin m) ℂ) (gradVal : VField n) : Fin m → ℝ :=
  fun j => ((gradVal ᵥ* S) j).re

/-- `OverlapFunction.eval` (687-696). -/
noncomputable def overlapFnEval (overlap input : VField n) : ℂ := overlap ⬝ᵥ input

/-- `OverlapFunction.grad` (698-709). -/
noncomputable def overlapFnGrad (overlap : VField n) (gradVal : ℂ) : VField n := fun p => gradVal * overlap p

/-- `AbsoluteValue.eval` (objective.py 664-665). -/
noncomputable def absFnEval (x : ℂ) : ℝ := ‖x‖

/-- `AbsoluteValue.grad` (objective.py 667-670); `none` for the division by zero. -/
noncomputable def absFnGrad (x : ℂ) (gradVal : ℝ) : Option ℂ :=
  open Classical in if ‖x‖ = 0 then none else some (gradVal * (star x / (‖x‖ : ℝ)))

/-- `DiffEpsilon.eval` (749-759); `ref` is what the callable returns at that time. -/
noncomputable def diffEpsilonEval (ref eps : VField n) : ℝ := ∑ p, ‖eps p - ref p‖ ^ 2

/-- `DiffEpsilon.grad` (761-774). -/
noncomputable def diffEpsilonGrad (ref eps : VField n) (gradVal : ℝ) : VField n := fun p => gradVal * (2 * star (eps p - ref p))

/-- The backward pass (C04) through `Epsilon`, `FdfdSimulation`, several `OverlapFunction`s and the `AbsoluteValue` of each, from the
derivatives `w` of the objective with respect to the absolute values: the gradients of the overlaps with respect to the fields are
added up. `isReal` is `np.isrealobj` of the permittivity. -/
noncomputable def overlapsBackward {sh : Shape} {k : Nat} (c : SimCfg sh) (bg : VField sh.size)
    (S : Matrix (Fin 3 × Fin sh.size) (Fin m) ℂ) (isReal : Bool) (Cs : Fin k → VField sh.size) (z : Fin m → ℝ) (w : Fin k → ℝ) :
    Option (Fin m → ℝ) :=
  let eps := epsilonEval bg S z
  (simFields c eps).bind fun E =>
    let grads : List (Option (VField sh.size)) := (List.finRange k).map fun i =>
      (absFnGrad (overlapFnEval (Cs i) E) (w i)).map (overlapFnGrad (Cs i))
    (grads.foldlM (fun acc (g : Option (VField sh.size)) => g.map (acc + ·)) 0).bind fun g =>
      (invdesGrad c eps g isReal).map (epsilonGrad S)

end Verif.Fdfd
