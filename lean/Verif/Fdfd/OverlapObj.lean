import Verif.Fdfd.Adjoint
/-
Model of the objectives of `spins/invdes/problem/emobjective.py`: `EmObjective.calculate_gradient`, `Overlap`,
`BasicOverlapObjective` and `PhaseOverlapObjective`.

Simplifications: the overlap field of a mode, which `compute_overlap_e` or the caller provides, is a parameter; a NaN
from a division of zero by zero makes the whole gradient `none`; the power of `BasicOverlapObjective` is a natural
number of at least one.
-/
namespace Verif.Fdfd.OverlapObj
open Matrix

/-- A column of `objective_C`: `np.matrix(vec(E_out)).H`. emobjective.py 150-151, 256, 377 -/
noncomputable def column {n : Nat} (E : VField n) : VField n := fun p => star (E p)

/-- `C.H`, one row per column of `C`. -/
noncomputable def herm {n : Nat} (C : VField n) : VField n := fun p => star (C p)

/-- `C.H.dot(x)` for one column. emobjective.py 156, 165, 269, 388 -/
noncomputable def dotH {n : Nat} (C x : VField n) : ℂ := ∑ p, herm C p * x p

/-! ### `Overlap` -/

/-- `Overlap`: the column and the wanted transmission, 0 if none is given. emobjective.py 149-151 -/
structure OverlapCfg (n : Nat) where
  C : VField n
  T : ℂ

noncomputable def mkOverlap {n : Nat} (E : VField n) (transmission : Option ℂ) : OverlapCfg n :=
  ⟨column E, transmission.getD 0⟩

/-- `Overlap.calculate_f`. emobjective.py 163-168 -/
noncomputable def OverlapCfg.f {n : Nat} (c : OverlapCfg n) (x : VField n) : ℝ := ‖dotH c.C x - c.T‖

/-- `Overlap.calculate_partial_df_dx`. emobjective.py 153-161 -/
noncomputable def OverlapCfg.dfdx {n : Nat} (c : OverlapCfg n) (x : VField n) : Option (VField n) :=
  if ‖dotH c.C x - c.T‖ = 0 then none
  else some fun p => 0.5 * star (dotH c.C x - c.T) / (‖dotH c.C x - c.T‖ : ℂ) * herm c.C p

/-- `Overlap.get_overlap_norm2`, for the fields of the structure. emobjective.py 177-185 -/
noncomputable def OverlapCfg.norm2 {n : Nat} (c : OverlapCfg n) (x : VField n) : ℝ := ‖dotH c.C x‖ ^ 2

/-! ### `BasicOverlapObjective` -/

/-- `np.min` and `np.max` of a list with a first entry. -/
noncomputable def npMin (a : ℝ) (l : List ℝ) : ℝ := l.foldl min a
noncomputable def npMax (a : ℝ) (l : List ℝ) : ℝ := l.foldl max a

/-- One output mode: column, `alpha[j]` and `beta[j]`. -/
structure BasicMode (n : Nat) where
  C : VField n
  alpha : ℝ
  beta : ℝ

/-- The body of the loop over the output modes: `out['power']` is a list with a first entry. emobjective.py
222-258 -/
noncomputable def mkBasic {n : Nat} (E : VField n) (power : ℝ × List ℝ) : BasicMode n :=
  ⟨column E, √(npMin power.1 power.2), √(npMax power.1 power.2)⟩

/-- The `f0` of `calculate_f`. emobjective.py 288-289 -/
noncomputable def basicF0 {n : Nat} (m : BasicMode n) (x : VField n) : ℝ :=
  let overlap := ‖dotH m.C x‖
  (if overlap < m.alpha then 1 else 0) * (m.alpha - overlap) + (if m.beta < overlap then 1 else 0) * (overlap - m.beta)

/-- `BasicOverlapObjective.calculate_f`. emobjective.py 283-291 -/
noncomputable def basicF {n : Nat} (ms : List (BasicMode n)) (pf : Nat) (x : VField n) : ℝ :=
  (ms.map fun m => basicF0 m x ^ pf).sum

/-- The `f0` of `calculate_partial_df_dx`. emobjective.py 272-273 -/
noncomputable def basicG0 {n : Nat} (m : BasicMode n) (x : VField n) : ℝ :=
  let overlap := ‖dotH m.C x‖
  (if overlap < m.alpha then 1 else 0) * (overlap - m.alpha) + (if m.beta < overlap then 1 else 0) * (m.beta - overlap)

/-- A row of `df0_viol_dx`. emobjective.py 275-277 -/
noncomputable def basicDf0 {n : Nat} (m : BasicMode n) (x : VField n) : VField n :=
  let overlap := ‖dotH m.C x‖
  fun p => ((1 * (if overlap < m.alpha then 1 else 0) - 1 * (if m.beta < overlap then 1 else 0)) * 0.5 *
    star (dotH m.C x) / (overlap : ℂ)) * herm m.C p

/-- `BasicOverlapObjective.calculate_partial_df_dx`. emobjective.py 263-281 -/
noncomputable def basicDfdx {n : Nat} (ms : List (BasicMode n)) (pf : Nat) (x : VField n) : Option (VField n) :=
  if ∃ m ∈ ms, ‖dotH m.C x‖ = 0 then none
  else some fun p => (ms.map fun m => (pf : ℂ) * (basicG0 m x : ℂ) ^ (pf - 1) * basicDf0 m x p).sum

/-! ### `PhaseOverlapObjective` -/

/-- One output mode of `PhaseOverlapObjective` with an arbitrary overlap. emobjective.py 371-379 -/
noncomputable def mkPhase {n : Nat} (overlap : VField n) (transmission : ℂ) : OverlapCfg n :=
  ⟨column (fun p => star (overlap p)), transmission⟩

/-- `PhaseOverlapObjective.calculate_f`, with `pf = 2`. emobjective.py 337, 401-407 -/
noncomputable def phaseF {n : Nat} (ms : List (OverlapCfg n)) (x : VField n) : ℝ :=
  (ms.map fun c => ‖dotH c.C x - c.T‖ ^ 2).sum

/-- `PhaseOverlapObjective.calculate_partial_df_dx`. emobjective.py 383-399 -/
noncomputable def phaseDfdx {n : Nat} (ms : List (OverlapCfg n)) (x : VField n) : Option (VField n) :=
  if ∃ c ∈ ms, ‖dotH c.C x - c.T‖ = 0 then none
  else some fun p => (ms.map fun c => 2 * (‖dotH c.C x - c.T‖ : ℂ) ^ (2 - 1) *
    (0.5 * star (dotH c.C x - c.T) / (‖dotH c.C x - c.T‖ : ℂ) * herm c.C p)).sum

/-! ### `EmObjective` -/

/-- `EmObjective.calculate_gradient`. `efields` are the fields of the structure, `dfdx` is what
`calculate_partial_df_dx` returns, `dzdp` is `param.calculate_gradient()`; `calculate_partial_df_dz` returns 0 for all
three objectives. emobjective.py 31-41, 67-68 -/
noncomputable def calculateGradient {n m k : Nat} (omega : ℂ) (S : Matrix (Fin 3 × Fin n) (Fin m) ℂ)
    (adjoint : VField n → VField n) (efields : VField n) (dfdx : Option (VField n)) (dzdp : Matrix (Fin m) (Fin k) ℂ) :
    Option (Fin k → ℂ) :=
  dfdx.map fun d => fun i =>
    star ((dzdpᴴ *ᵥ fun j => star ((emDfDz omega S adjoint efields d j : ℂ) + 0)) i)

end Verif.Fdfd.OverlapObj
