import Mathlib.Analysis.Real.Sqrt
import Mathlib.Data.Sign.Basic
/-
Model of spins/gridlock/direction.py, over the reals.
-/
namespace Verif.Render

/-- `np.linalg.norm` of a vector of three entries. -/
noncomputable def norm3 (v : Fin 3 → ℝ) : ℝ := Real.sqrt (v 0 ^ 2 + v 1 ^ 2 + v 2 ^ 2)

open Classical in
/-- `np.argwhere(abs(vec) > delta).flatten()`: the indices of large entries, ascending. direction.py 53-60 -/
noncomputable def largeEntries (v : Fin 3 → ℝ) : List (Fin 3) :=
  (List.finRange 3).filter fun i => decide (|v i| > 1e-6 * norm3 v)

/-- `axisvec2axis`, `none` for the `ValueError`. direction.py 37-62 -/
noncomputable def axisvec2axis (v : Fin 3 → ℝ) : Option (Fin 3) :=
  if (largeEntries v).length ≠ 1 then none else (largeEntries v).head?

/-- `axisvec2polarity`. direction.py 18-34 -/
noncomputable def axisvec2polarity (v : Fin 3 → ℝ) : Option SignType := (axisvec2axis v).map fun i => SignType.sign (v i)

end Verif.Render
