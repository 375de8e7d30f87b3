import Verif.Render.Draw
import Verif.Render.PolygonSpec
import Mathlib.Data.Complex.Basic
import Mathlib.MeasureTheory.Integral.Average
import Mathlib.MeasureTheory.Measure.Lebesgue.Basic
/-
Specification for C87: the cells of the components of a Yee grid, and the part of the plane inside of a polygon.
-/
namespace Verif.Render.Draw

open Verif.Render Verif.Render.Polygon Set MeasureTheory

/-- The cell number `k` along one axis of a component. Along its own axis a component has the cells between the edges.
Along the others its cells lie around the edges: from the middle between the edge before and the edge `k` to the middle
between the edge `k` and the next one. Before the first edge there is half of a further cell, as wide as the last cell, or
as wide as the first one if the axis is periodic. -/
noncomputable def yeeCell (periodic own : Bool) (e : List ℝ) (k : Nat) : ℝ × ℝ :=
  if own then (e.getD k 0, e.getD (k + 1) 0)
  else
    (if k = 0 then
        e.getD 0 0 - (if periodic then e.getD 1 0 - e.getD 0 0 else e.getD (e.length - 1) 0 - e.getD (e.length - 2) 0) / 2
      else (e.getD (k - 1) 0 + e.getD k 0) / 2,
      (e.getD k 0 + e.getD (k + 1) 0) / 2)

/-- The sides of the cell `c` of the component `n`. -/
noncomputable def side (g : Grid3 ℝ) (n : Fin 3) (c : Fin 3 → Nat) (a : Fin 3) : ℝ × ℝ :=
  yeeCell (g.periodic a) (decide (a = n)) (g.exyz a) (c a)

/-- The two axes other than `x`, in increasing order. -/
def planeAxes (x : Fin 3) : Fin 3 × Fin 3 := (if x = 0 then 1 else 0, if x = 2 then 1 else 2)

/-- The cell `c` of the component `n`, as a set of points: two coordinates in the plane and the height. -/
noncomputable def cell (g : Grid3 ℝ) (n : Fin 3) (c : Fin 3 → Nat) : Set ((ℝ × ℝ) × ℝ) :=
  (Ioc (side g n c (planeAxes g.ext).1).1 (side g n c (planeAxes g.ext).1).2 ×ˢ
    Ioc (side g n c (planeAxes g.ext).2).1 (side g n c (planeAxes g.ext).2).2) ×ˢ
  Ioc (side g n c g.ext).1 (side g n c g.ext).2

/-- Whether a point of the plane is inside of a polygon. -/
noncomputable def insideOf (poly : List (ℝ × ℝ)) (x : ℝ × ℝ) : Bool := decide (winding poly x ≠ 0)

/-- A polygon that can be drawn: it has at least three vertices, a width and a height, and goes round each point once or not at all and always in
the same direction. -/
structure Proper (poly : List (ℝ × ℝ)) : Prop where
  points : 3 ≤ poly.length
  width : ∃ u ∈ poly, ∃ v ∈ poly, u.1 ≠ v.1
  height : ∃ u ∈ poly, ∃ v ∈ poly, u.2 ≠ v.2
  once : (∀ z, winding poly z = 0 ∨ winding poly z = 1) ∨ ∀ z, winding poly z = 0 ∨ winding poly z = -1

/-- A Yee grid: at least one cell along each axis, the edges in increasing order, and each component is shifted by half a
cell along its own axis. -/
structure YeeGrid (g : Grid3 ℝ) : Prop where
  inc : ∀ a, (g.exyz a).Pairwise (· < ·)
  two : ∀ a, 2 ≤ (g.exyz a).length
  shift : ∀ n a, g.shift n a = if a = n then 1 / 2 else 0
  comp : ∀ n a, g.comp n a = if a = n then 0 else 1 / 2

/-- Whether there is a cell with these numbers. -/
def OnGrid (g : Grid3 ℝ) (c : Fin 3 → Nat) : Prop := ∀ a, c a + 1 < (g.exyz a).length

end Verif.Render.Draw
