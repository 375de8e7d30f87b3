import Mathlib.Data.Real.Basic
import Mathlib.Data.List.Rotate
import Mathlib.Algebra.BigOperators.Group.List.Basic
/-
Specification for C86: how often a polygon goes round a point.
-/
namespace Verif.Render.Polygon

/-- The coordinate `x` of the line through `p` and `q` at the height `y`. -/
noncomputable def xAt (p q : ℝ × ℝ) (y : ℝ) : ℝ := p.1 + (y - p.2) / (q.2 - p.2) * (q.1 - p.1)

/-- Whether the segment from `p` to `q` passes upwards (`1`) or downwards (`-1`) on the left of the point `z`, at its
height; `0` if it does not pass there. The lower end does not belong to the segment, the upper one does. -/
noncomputable def crossing (p q z : ℝ × ℝ) : ℤ :=
  if p.2 < z.2 ∧ z.2 ≤ q.2 ∧ xAt p q z.2 < z.1 then 1
  else if q.2 < z.2 ∧ z.2 ≤ p.2 ∧ xAt p q z.2 < z.1 then -1
  else 0

/-- The winding number of a closed polygon around a point: the signed number of its segments which the ray to the left of
the point crosses. It is 0 outside. Inside of a polygon which does not cross itself it is 1 or -1. -/
noncomputable def winding (poly : List (ℝ × ℝ)) (z : ℝ × ℝ) : ℤ :=
  (List.zipWith (fun p q => crossing p q z) poly (poly.rotate 1)).sum

end Verif.Render.Polygon
