import Verif.Fdfd.Operators
/-
Model of `shift_with_mirror` (`spins/fdfd_tools/operators.py` 375-414).
-/
namespace Verif.Fdfd

/-- `mirrored_range(n, s)[i]` (396-400). -/
def mirroredRange (n : Nat) (s : Int) (i : Nat) : Int :=
  let v : Int := i + s
  let v := if (n : Int) ≤ v then 2 * n - v - 1 else v
  if v < 0 then -1 - v else v

/-- `ijk` at one cell (402-404); `zip(shape, shifts)` has the length of the shape. -/
def mirrorIdx (axis : Nat) (s : Int) (shape : List Nat) (idx : List Nat) : List Nat :=
  List.zipWith (fun (p : Nat × Int) i => (mirroredRange p.1 p.2 i).toNat)
    (shape.zip ((List.range 3).map fun a => if a = axis then s else 0)) idx

/-- `shift_with_mirror` (375-414). `j_ind` (408-410) is `ravelF`; the ranges are never negative, and `csr_matrix` raises
if a column index is not below `n`. -/
def shiftWithMirror (axis : Nat) (shape : List Nat) (s : Int) : Option (Mat (numel shape)) :=
  if shape.length ≠ 2 ∧ shape.length ≠ 3 then none
  else if shape.length ≤ axis then none
  else if ((shape.getD axis 0 : Nat) : Int) ≤ s then none
  else if (idxF shape).any (fun c => decide (numel shape ≤ ravelF shape (mirrorIdx axis s shape c))) then none
  else some (csr (numel shape) ((idxF shape).map fun c => (1, ravelF shape c, ravelF shape (mirrorIdx axis s shape c))))

end Verif.Fdfd
