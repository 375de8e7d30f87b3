import Mathlib.Data.Complex.Basic
import Mathlib.Algebra.BigOperators.Group.List.Basic
/-
Model of the PML part of `spins/fdfd_tools/grid.py`: `prepare_s_function`, `stretch_with_scpml` and
`apply_scpml`. Numpy arrays and the lists holding them are objects in a heap, so that it is visible
which of them are written. Numbers are exact complex numbers.
-/
namespace Verif.Fdfd

/-- The heap: one-dimensional arrays, and lists of three references to arrays. -/
structure GHeap where
  arrays : List (List ℂ)
  rows : List (Fin 3 → Nat)

/-- `dxes`: the references to the two rows `dxes[0]` and `dxes[1]`. -/
structure DxRef where
  e : Nat
  h : Nat

/-- Allocates an array. -/
def GHeap.newArray (hp : GHeap) (v : List ℂ) : GHeap × Nat :=
  (⟨hp.arrays ++ [v], hp.rows⟩, hp.arrays.length)

/-- Allocates a list of three array references. -/
def GHeap.newRow (hp : GHeap) (r : Fin 3 → Nat) : GHeap × Nat :=
  (⟨hp.arrays, hp.rows ++ [r]⟩, hp.rows.length)

/-- The array `row[axis]`. -/
def GHeap.read (hp : GHeap) (row : Nat) (axis : Fin 3) : List ℂ :=
  hp.arrays.getD ((hp.rows.getD row (fun _ => 0)) axis) []

/-- `row[axis] = array`. -/
def GHeap.assign (hp : GHeap) (row : Nat) (axis : Fin 3) (ref : Nat) : GHeap :=
  ⟨hp.arrays, hp.rows.modify row (fun r => Function.update r axis ref)⟩

/-- The default `s_function`: `prepare_s_function()` with `ln_R = -16`, `m = 4` (16-37). -/
noncomputable def sFunction (x : ℂ) : ℂ := (4 + 1) * (-16) / 2 * x ^ 4

/-- Element `i` of `pos = np.hstack((0, dx.cumsum()))` (119). -/
def posAt (dx : List ℂ) (i : Nat) : ℂ := (dx.take i).sum

/-- `pos_a` (120). -/
noncomputable def posA (dx : List ℂ) (i : Nat) : ℂ := (posAt dx i + posAt dx (i + 1)) / 2

/-- Multiplies the elements selected by `slc` (149-150). -/
noncomputable def stretchArr (v : List ℂ) (slc : Nat → Bool) (f : Nat → ℂ) : List ℂ :=
  v.mapIdx (fun i x => if slc i then x * f i else x)

/-- The new arrays of `stretch_with_scpml` (113-150) from `dxes[0][axis]` and `dxes[1][axis]`; `none` if
`pos[thickness]` or `pos[-thickness - 1]` is out of range. Simplifications: `epsilon_effective = 1`, the default
`s_function` (the only values `apply_scpml` uses), `thickness ≥ 1`, both arrays of the same length. -/
noncomputable def stretchArrays (a b : List ℂ) (front : Bool) (omega : ℂ) (th : Nat) :
    Option (List ℂ × List ℂ) :=
  let n := a.length
  if n < th then none
  else
    let bound := if front then posAt a th else posAt a (n - th)
    let d := if front then bound - posAt a 0 else posAt a n - bound
    let l : ℂ → ℂ := fun x => if front then (bound - x) / (bound - posAt a 0)
      else (x - bound) / (posAt a n - bound)
    let slc : Nat → Bool := fun i => if front then decide (i < th) else decide (n - th ≤ i)
    let s : ℂ → ℂ := fun x => 1 + Complex.I * sFunction (l x) / d / (omega.re : ℂ)
    some (stretchArr a slc (fun i => s (posA a i)), stretchArr b slc (fun i => s (posAt a i)))

/-- `stretch_with_scpml` (89-154): `astype` makes copies, which then replace the entries of the rows. -/
noncomputable def stretchWithScpml (hp : GHeap) (dx : DxRef) (axis : Fin 3) (front : Bool) (omega : ℂ)
    (th : Nat) : Option GHeap :=
  (stretchArrays (hp.read dx.e axis) (hp.read dx.h axis) front omega th).map fun ab =>
    let (hp, ra) := hp.newArray ab.1
    let (hp, rb) := hp.newArray ab.2
    let hp := hp.assign dx.e axis ra
    hp.assign dx.h axis rb

/-- The argument `pml_layers`. -/
inductive Pml where
  | absent
  | scalar (n : Int)
  | layers (l : List Int)

/-- `not pml_layers` (294): `None`, `0` and the empty list. -/
def Pml.falsy : Pml → Bool
  | .absent => true
  | .scalar n => decide (n = 0)
  | .layers l => l.isEmpty

/-- The list of layers (297-298). -/
def Pml.toList : Pml → List Int
  | .absent => []
  | .scalar n => List.replicate 6 n
  | .layers l => l

/-- `itertools.product(range(3), [1, -1])` (301). -/
def sides : List (Fin 3 × Bool) :=
  [(0, true), (0, false), (1, true), (1, false), (2, true), (2, false)]

/-- Copies a row: `[np.array(dxes[grid_num][i]) for i in range(3)]` (290-292). -/
def copyRow (hp : GHeap) (row : Nat) : GHeap × Nat :=
  let a0 := hp.read row 0
  let a1 := hp.read row 1
  let a2 := hp.read row 2
  let (hp, r0) := hp.newArray a0
  let (hp, r1) := hp.newArray a1
  let (hp, r2) := hp.newArray a2
  hp.newRow (fun i => match i with | 0 => r0 | 1 => r1 | 2 => r2)

/-- The loop of `apply_scpml` (300-305). -/
noncomputable def scpmlLoop (dx : DxRef) (omega : ℂ) : List (Int × Fin 3 × Bool) → GHeap → Option GHeap
  | [], hp => some hp
  | (pml, axis, front) :: rest, hp =>
    if 0 < pml then (stretchWithScpml hp dx axis front omega pml.toNat).bind (scpmlLoop dx omega rest)
    else scpmlLoop dx omega rest hp

/-- `apply_scpml` (271-307); `none` is an exception. -/
noncomputable def applyScpml (hp : GHeap) (dx : DxRef) (pml : Pml) (omega : ℂ) :
    Option (GHeap × DxRef) :=
  let (hp, re) := copyRow hp dx.e
  let (hp, rh) := copyRow hp dx.h
  let dx' : DxRef := ⟨re, rh⟩
  if pml.falsy then some (hp, dx')
  else (scpmlLoop dx' omega (pml.toList.zip sides) hp).map fun hp => (hp, dx')

end Verif.Fdfd
