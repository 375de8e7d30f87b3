import Mathlib.Analysis.Complex.Trigonometric
import Mathlib.Analysis.SpecialFunctions.Trigonometric.Inverse
import Mathlib.Analysis.SpecialFunctions.Complex.Arg
import Mathlib.Data.List.GetD
/-
Model of the directions of the far field and of the analysis functions of `spins/invdes/problem/farfield.py`: `make_sphere_point`,
`make_half_sphere_point` (430-566), `points2triangles_averaging_matrix`, `area_selection_vector`, `triangle_selection_vector` and
`triangle_area_vector` (722-800).

Simplifications: numbers are real, `x ** 0.5` is the square root, `np.arccos` and `np.angle` are exact. Division by a zero norm
gives zero; `mesh_sums_ne` proves that it never happens.
-/
namespace Verif.Far
set_option linter.unusedVariables false

/-- A point, and the indices of the corners of a triangle. -/
abbrev V3 := Fin 3 → ℝ
abbrev Tri := Nat × Nat × Nat

/-- The pair that `make_sphere_point` returns. -/
structure Mesh where
  points : List V3
  triangles : List Tri

/-- `points[i]`. -/
def pt (pts : List V3) (i : Nat) : V3 := pts.getD i 0

/-- `p / (np.sum(p**2)**0.5)` (456), `p / np.linalg.norm(p)` (529). -/
noncomputable def unit (p : V3) : V3 := fun b => p b / Real.sqrt (p 0 ^ 2 + p 1 ^ 2 + p 2 ^ 2)

open Classical in
/-- The index of a new point, which is appended if it is not in the list (462-469). -/
noncomputable def addPoint (pts : List V3) (p : V3) : List V3 × Nat :=
  if p ∈ pts then (pts, pts.idxOf p) else (pts ++ [p], pts.length)

/-- The body of the loop over the triangles (453-495). -/
noncomputable def splitTri (s : List V3 × List Tri) (t : Tri) : List V3 × List Tri :=
  let p1 := unit (fun b => pt s.1 t.1 b + pt s.1 t.2.1 b)
  let p2 := unit (fun b => pt s.1 t.2.1 b + pt s.1 t.2.2 b)
  let p3 := unit (fun b => pt s.1 t.2.2 b + pt s.1 t.1 b)
  let q1 := addPoint s.1 p1
  let q2 := addPoint q1.1 p2
  let q3 := addPoint q2.1 p3
  (q3.1, s.2 ++ [(q1.2, q2.2, q3.2), (t.1, q1.2, q3.2), (t.2.1, q1.2, q2.2), (t.2.2, q3.2, q2.2)])

/-- The body of the loop over the interpolations (452-497). -/
noncomputable def refine (m : Mesh) : Mesh :=
  let r := m.triangles.foldl splitTri (m.points, [])
  ⟨r.1, r.2⟩

/-- The starting points of the sphere (447-450). -/
def octahedron : Mesh where
  points := [![1, 0, 0], ![0, 1, 0], ![-1, 0, 0], ![0, -1, 0], ![0, 0, 1], ![0, 0, -1]]
  triangles := [(0, 1, 4), (1, 2, 4), (2, 3, 4), (3, 0, 4), (0, 1, 5), (1, 2, 5), (2, 3, 5), (3, 0, 5)]

/-- The starting points of the half sphere (521-523). -/
def pyramid (polarity : ℝ) : Mesh where
  points := [![1, 0, 0], ![0, 1, 0], ![-1, 0, 0], ![0, -1, 0], ![0, 0, polarity]]
  triangles := [(0, 1, 4), (1, 2, 4), (2, 3, 4), (3, 0, 4)]

/-- `make_sphere_point`. -/
noncomputable def sphere (count : Nat) : Mesh := refine^[count] octahedron

/-- `make_half_sphere_point`. -/
noncomputable def halfSphere (count : Nat) (polarity : ℝ) : Mesh := refine^[count] (pyramid polarity)

/-! ### Analysis functions -/

/-- `points2triangles_averaging_matrix(points, triangles) @ v` (722-736): the entries of equal index are added. The matrix has as
many columns as the largest index plus one, which is the number of points by `sphere_indices`. -/
noncomputable def averages (m : Mesh) (v : Nat → ℝ) : List ℝ :=
  m.triangles.map fun t => 1 / 3 * v t.1 + 1 / 3 * v t.2.1 + 1 / 3 * v t.2.2

/-- `triangle_area_vector` (788-800). -/
noncomputable def areas (m : Mesh) : List ℝ :=
  m.triangles.map fun t =>
    let p0 : V3 := fun b => pt m.points t.2.1 b - pt m.points t.1 b
    let p1 : V3 := fun b => pt m.points t.2.2 b - pt m.points t.1 b
    0.5 * Real.sqrt ((p0 1 * p1 2 - p0 2 * p1 1) ^ 2 + (p0 2 * p1 0 - p0 0 * p1 2) ^ 2 + (p0 0 * p1 1 - p0 1 * p1 0) ^ 2)

/-- `triangle_center` (762-763). -/
noncomputable def center (m : Mesh) (t : Tri) : V3 := fun b =>
  (pt m.points t.1 b + pt m.points t.2.1 b + pt m.points t.2.2 b) / 3

/-- `np.angle`. -/
noncomputable def npAngle (z : ℂ) : ℝ := z.arg

/-- `np.cos(x) + 1j * np.sin(x)`. -/
noncomputable def phase (x : ℝ) : ℂ := (Real.cos x : ℂ) + Complex.I * (Real.sin x : ℂ)

open Classical in
/-- An entry of `s_ph` (768, 772-783) for the azimuth `ph`. -/
noncomputable def selectPh (b0 b1 ph : ℝ) : Bool :=
  let php := phase ph
  let ph0 := phase b0
  let ph1 := phase b1
  if b1 - b0 ≤ Real.pi then
    decide (npAngle (php / ph0) < npAngle (ph1 / ph0)) && decide (npAngle (php / ph0) > 0)
  else
    !(decide (npAngle (php / ph1) < npAngle (ph0 / ph1)) && decide (npAngle (php / ph1) > 0))

open Classical in
/-- An entry of `s_th` (766-767, 770). -/
noncomputable def selectTh (b0 b1 : ℝ) (c : V3) : Bool :=
  let r := Real.sqrt (c 0 ^ 2 + c 1 ^ 2 + c 2 ^ 2)
  let th := Real.arccos (c 2 / r)
  decide (th > b0) && decide (th < b1)

/-- `triangle_selection_vector` (753-785). -/
noncomputable def selection (m : Mesh) (th ph : ℝ × ℝ) : List ℝ :=
  m.triangles.map fun t =>
    let c := center m t
    if selectTh th.1 th.2 c && selectPh ph.1 ph.2 (npAngle ((c 0 : ℂ) + Complex.I * (c 1 : ℂ))) then 1 else 0

/-- `area_selection_vector` (739-750). -/
noncomputable def areaSelection (m : Mesh) (th ph : ℝ × ℝ) : List ℝ :=
  List.zipWith (· * ·) (selection m th ph) (areas m)

end Verif.Far
