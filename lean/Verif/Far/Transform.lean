import Verif.Fdfd.Operators
import Verif.Fdfd.Cells
import Verif.Far.Mesh
import Mathlib.Data.List.MinMax
/-
Model of the near-to-far-field transformation of `spins/invdes/problem/farfield.py`: `make_near2farfield_matrix`,
`make_near2farfield_box_matrix` (26-270), `fields_on_slice` (273-322), `move2H_matrix` (325-384), `make_fourier_matrix` (387-427) and
`cart2spheric_matrix` (569-616).

Simplifications: numbers are exact; a sparse matrix is the matrix it denotes. The crop matrices keep the rows of the selected cells
and every product with them sums over those rows, so the product of the Fourier matrix and the crop matrix is a matrix over all cells
with zeros outside of the selection.
-/
namespace Verif.Far
open Matrix Verif.Fdfd
set_option linter.unusedVariables false
variable {sh : Shape} {m : Nat}

/-- A matrix from the fields of the grid to three components at `m` directions. -/
abbrev ToFar (m n : Nat) := Matrix (Fin 3 × Fin m) (Fin 3 × Fin n) ℂ

/-- `abs(width).argmin()` (59). -/
noncomputable def argminAbs (w : V3) : Fin 3 :=
  if |w 0| ≤ |w 1| ∧ |w 0| ≤ |w 2| then 0 else if |w 1| ≤ |w 2| then 1 else 2

/-- `find_ind` (86): the first position closest to `x`. -/
noncomputable def findInd (n : Nat) (xs : Nat → ℝ) (x : ℝ) : Nat := ((List.range n).argmin fun i => |x - xs i|).getD 0

/-- The arguments `pos`, `width` and `polarity` of a plane. -/
structure Plane where
  pos : V3
  width : V3
  polarity : ℤ

noncomputable def Plane.axis (p : Plane) : Fin 3 := argminAbs p.width

/-- `normal` (60-61). -/
noncomputable def Plane.normal (p : Plane) : Fin 3 → ℤ := fun b => if b = p.axis then p.polarity else 0

/-- The slices (87-95); `xyz` are the positions `grid.xyz`. -/
noncomputable def Plane.lo (p : Plane) (sh : Shape) (xyz : Fin 3 → Nat → ℝ) (b : Fin 3) : Nat :=
  findInd (sh b) (xyz b) (p.pos b - p.width b / 2)
noncomputable def Plane.hi (p : Plane) (sh : Shape) (xyz : Fin 3 → Nat → ℝ) (b : Fin 3) : Nat :=
  findInd (sh b) (xyz b) (p.pos b + p.width b / 2) + (p.normal b).natAbs

/-- The cells of `pos[x_slice, y_slice, z_slice]` (293). -/
def Plane.selected (p : Plane) (xyz : Fin 3 → Nat → ℝ) (c : Cell sh) : Prop :=
  ∀ b, p.lo sh xyz b ≤ (c b).val ∧ (c b).val < p.hi sh xyz b

/-- `d_area` (100-102) of a cell. -/
noncomputable def Plane.area (p : Plane) (d : Dxes) (c : Cell sh) : ℂ :=
  (if p.axis = 0 then 1 else d.h 0 (c 0)) * (if p.axis = 1 then 1 else d.h 1 (c 1)) * (if p.axis = 2 then 1 else d.h 2 (c 2))

/-- `kx`, `ky`, `kz` (404-408) of a direction. -/
noncomputable def waveK (omega : ℂ) (x : V3) (b : Fin 3) : ℂ := omega * (x b : ℂ) / (Real.sqrt (x 0 ^ 2 + x 1 ^ 2 + x 2 ^ 2) : ℂ)

open Classical in
/-- `fourier_matrix @ fos` (96-97, 106-110, 387-427). -/
noncomputable def fourier (p : Plane) (xyz : Fin 3 → Nat → ℝ) (d : Dxes) (points : Fin m → V3) (omega : ℂ) : ToFar m sh.size :=
  fun r q => if r.1 = q.1 then
    let c := cellAt q.2
    if p.selected xyz c then
      Complex.exp (Complex.I * (waveK omega (points r.2) 0 * (xyz 0 (c 0) : ℂ) + waveK omega (points r.2) 1 * (xyz 1 (c 1) : ℂ) +
        waveK omega (points r.2) 2 * (xyz 2 (c 2) : ℂ))) * p.area d c
    else 0
  else 0

/-- A matrix of three blocks on the diagonal. -/
noncomputable def diag3 {n : Nat} (B : Fin 3 → Mat n) : Mat3 n := bmat ![![B 0, 0, 0], ![0, B 1, 0], ![0, 0, B 2]]

/-- `move2H_matrix` (325-384): `move_E` and `move_H` from the averages `fw` and `bw`. -/
noncomputable def moveE {n : Nat} (fw bw : Fin 3 → Mat n) : Fin 3 → Mat3 n
  | 0 => diag3 ![fw 2 * fw 1 * bw 0, fw 2, fw 1]
  | 1 => diag3 ![fw 2, fw 2 * fw 0 * bw 1, fw 0]
  | 2 => diag3 ![fw 1, fw 0, fw 1 * fw 0 * bw 2]
noncomputable def moveH {n : Nat} (fw bw : Fin 3 → Mat n) : Fin 3 → Mat3 n
  | 0 => diag3 ![1, fw 1 * bw 0, fw 2 * bw 0]
  | 1 => diag3 ![fw 0 * bw 1, 1, fw 2 * bw 1]
  | 2 => diag3 ![fw 0 * bw 2, fw 1 * bw 2, 1]

/-- `np.angle` of the two coordinates after `axis`, and `np.arccos` of the one of `axis` (582-591). -/
noncomputable def thOf (axis : Fin 3) (x : V3) : ℝ := Real.arccos (x axis / Real.sqrt (x 0 ^ 2 + x 1 ^ 2 + x 2 ^ 2))
noncomputable def phOf (axis : Fin 3) (x : V3) : ℝ := npAngle ((x (axis + 1) : ℂ) + Complex.I * (x (axis + 2) : ℂ))

/-- `t_3d` (594-600). -/
noncomputable def t3d (th ph : ℝ) : Matrix (Fin 3) (Fin 3) ℝ :=
  !![Real.sin th * Real.cos ph, Real.sin th * Real.sin ph, Real.cos th;
    Real.cos th * Real.cos ph, Real.cos th * Real.sin ph, -Real.sin th;
    -Real.sin ph, Real.cos ph, 0]

/-- `t_3d` after `np.roll(t_3d, 2 - axis, axis=1)` (602). -/
noncomputable def toSpherical (axis : Fin 3) (x : V3) : Matrix (Fin 3) (Fin 3) ℝ :=
  fun i j => t3d (thOf axis x) (phOf axis x) i (j - (2 - axis))

/-- `cart2spheric_matrix` (569-616). -/
noncomputable def cart2spheric (axis : Fin 3) (points : Fin m → V3) : Mat3 m :=
  bmat fun a b => Matrix.diagonal fun i => (toSpherical axis (points i) a b : ℂ)

/-- `make_near2farfield_matrix` (26-137). -/
noncomputable def nearToFar (points : Fin m → V3) (omega : ℂ) (xyz : Fin 3 → Nat → ℝ) (d : Dxes) (p : Plane) (eps0 mu0 : ℂ)
    (sphericalAxis : Fin 3) : Option (ToFar m sh.size) :=
  (e2h sh omega d none none 0 0).bind fun eh => (forAxes fun a => avgf a sh).bind fun fw => (forAxes fun a => avgb a sh).map fun bw =>
    let crossNormal : Mat3 sh.size := vecCross fun q => (p.normal q.1 : ℂ)
    let f : ToFar m sh.size := fourier p xyz d points omega
    let crossK : Mat3 m := vecCross fun q => omega * (points q.2 q.1 : ℂ)
    let A := f * crossNormal * moveH fw bw p.axis * eh
    let F := f * (-crossNormal) * moveE fw bw p.axis
    let cart := (-Complex.I * omega * (mu0 / (4 * Real.pi * 1) * Complex.exp (-Complex.I * omega * 1))) • A -
      ((-Complex.I) / eps0 * eps0 / (4 * Real.pi * 1) * Complex.exp (-Complex.I * omega * 1)) • (crossK * F)
    diag3 ![0, 1, 1] * (cart2spheric sphericalAxis points * cart)

/-- The planes of `make_near2farfield_box_matrix` (170-264). -/
noncomputable def boxPlanes (center size : V3) : List Plane :=
  [⟨fun b => center b - ![size 0 / 2, 0, 0] b, ![0, size 1, size 2], -1⟩, ⟨fun b => center b + ![size 0 / 2, 0, 0] b, ![0, size 1, size 2], 1⟩,
    ⟨fun b => center b - ![0, size 1 / 2, 0] b, ![size 0, 0, size 2], -1⟩, ⟨fun b => center b + ![0, size 1 / 2, 0] b, ![size 0, 0, size 2], 1⟩,
    ⟨fun b => center b - ![0, 0, size 2 / 2] b, ![size 0, size 1, 0], -1⟩, ⟨fun b => center b + ![0, 0, size 2 / 2] b, ![size 0, size 1, 0], 1⟩]

/-- The sum of the matrices of the planes. -/
noncomputable def sumPlanes (points : Fin m → V3) (omega : ℂ) (xyz : Fin 3 → Nat → ℝ) (d : Dxes) (eps0 : ℂ) (sphericalAxis : Fin 3) :
    List Plane → Option (ToFar m sh.size)
  | [] => some 0
  | p :: l => (nearToFar points omega xyz d p eps0 1 sphericalAxis).bind fun t => (sumPlanes points omega xyz d eps0 sphericalAxis l).map fun s => t + s

/-- `make_near2farfield_box_matrix` (140-270). The argument `mu_0` is not used. -/
noncomputable def boxToFar (points : Fin m → V3) (omega : ℂ) (xyz : Fin 3 → Nat → ℝ) (d : Dxes) (center size : V3) (eps0 mu0 : ℂ)
    (sphericalAxis : Fin 3) : Option (ToFar m sh.size) :=
  sumPlanes points omega xyz d eps0 sphericalAxis (boxPlanes center size)

end Verif.Far
