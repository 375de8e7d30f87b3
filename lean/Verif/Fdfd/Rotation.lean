import Verif.Fdfd.Operators
/-
Model of the older shift and derivative operators of `spins/fdfd_tools/operators.py` (480-600), which
work on two- and three-dimensional grids and are the ones used by the waveguide mode solver.
-/
namespace Verif.Fdfd
open Matrix

/-- The entry at the multi-index `c` of `np.meshgrid` of the arrays
`(np.arange(m) + s) % m for m, s in zip(shape, shifts)` (504, 513). -/
def shiftedIdx (s shifts c : List Nat) : List Nat :=
  List.zipWith (fun (p : Nat × Nat) x => (x + p.2) % p.1) (s.zip shifts) c

/-- `rotation_bloch` (480-536); `none` stands for the exceptions of 494-500. `i_ind = np.arange(n)` are
the positions of the cells in Fortran order. The cells of the boundary plane are those of the grid
with a single layer along the axis (505-512). -/
noncomputable def rotationBloch (axis : Nat) (s : List Nat) (phase : ℂ) (sd : Int) :
    Option (Mat (numel s)) :=
  if ¬ (s.length = 2 ∨ s.length = 3) then none
  else if ¬ axis < s.length then none
  else if ¬ (sd = -1 ∨ sd = 1) then none
  else
    let shifts := (List.range 3).map fun a => if a = axis then 1 else 0
    let d := csr (numel s) ((idxF s).map fun c =>
      (1, ravelF s c, ravelF s (shiftedIdx s shifts c)))
    let dBloch := csr (numel s) ((idxF (s.set axis 1)).map fun r =>
      (1, ravelF s (r.set axis (s.getD axis 0 - 1)), ravelF s r))
    let df := d - dBloch + Complex.exp (-1 * Complex.I * phase) • dBloch
    some (if sd = -1 then dfᴴ else df)

/-- `phase[a]` of `deriv_forward` and `deriv_back` (555, 586): only `dx a i` with `i < shape[a]` matters. -/
noncomputable def axisBloch (s : List Nat) (dx : Nat → Nat → ℂ) (k : Nat → ℂ) (a : Nat) : ℂ :=
  k a * ((List.range (s.getD a 0)).map (dx a)).sum

/-- Entry `a` of `deriv_forward` (539-566); without a Bloch vector `k` is zero. -/
noncomputable def derivForward (s : List Nat) (dx : Nat → Nat → ℂ) (k : Nat → ℂ) (a : Nat) :
    Option (Mat (numel s)) :=
  (rotationBloch a s (axisBloch s dx k a) 1).map fun r =>
    diags (numel s) ((flattenF s fun idx => dx a (idx.getD a 0)).map fun x => 1 / x) * (r - 1)

/-- Entry `a` of `deriv_back` (569-600). -/
noncomputable def derivBack (s : List Nat) (dx : Nat → Nat → ℂ) (k : Nat → ℂ) (a : Nat) :
    Option (Mat (numel s)) :=
  (rotationBloch a s (axisBloch s dx k a) (-1)).map fun r =>
    diags (numel s) ((flattenF s fun idx => dx a (idx.getD a 0)).map fun x => -1 / x) * (r - 1)

end Verif.Fdfd
