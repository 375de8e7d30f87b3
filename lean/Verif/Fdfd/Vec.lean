/-
Model of `spins/fdfd_tools/vectorization.py`. A numpy array of shape `s` is a function on
multi-indices, of which only the values at multi-indices inside `s` matter.
-/
namespace Verif.Fdfd

/-- The multi-indices of an array of shape `s` in Fortran order: the first index varies fastest. -/
def idxF : List Nat → List (List Nat)
  | [] => [[]]
  | n :: s => (idxF s).flatMap (fun r => (List.range n).map (fun i => i :: r))

/-- `a.flatten(order='F')` (vectorization.py 26). -/
def flattenF {α : Type} (s : List Nat) (a : List Nat → α) : List α := (idxF s).map a

/-- Position of a multi-index in Fortran order, as used by `reshape(order='F')` (43) and
`np.ravel_multi_index(order='F')` (`operators.py` 649-652). -/
def ravelF : List Nat → List Nat → Nat
  | n :: s, i :: r => i + n * ravelF s r
  | _, _ => 0

/-- Number of cells. -/
def numel : List Nat → Nat
  | [] => 1
  | n :: s => n * numel s

/-- `v.reshape(shape, order='F')` (43); `none` if the sizes differ (numpy raises). Shapes with `-1`
are not modelled. -/
def reshapeF {α : Type} [Inhabited α] (s : List Nat) (v : List α) : Option (List Nat → α) :=
  if v.length = numel s then some (fun idx => v.getD (ravelF s idx) default) else none

/-- `np.split(v, 3)` (43); `none` if the length is not divisible by three (numpy raises). -/
def split3 {α : Type} (v : List α) : Option (List (List α)) :=
  if v.length % 3 = 0 then
    let m := v.length / 3
    some [v.take m, (v.drop m).take m, (v.drop (2 * m)).take m]
  else none

/-- `vec` (13-26), where `none` is `None`. -/
def vec {α : Type} (s : List Nat) : Option (List (List Nat → α)) → Option (List α)
  | none => none
  | some f => some (f.flatMap (flattenF s))

/-- The list comprehension of `unvec` (43). -/
def reshapeAll {α : Type} [Inhabited α] (s : List Nat) : List (List α) → Option (List (List Nat → α))
  | [] => some []
  | v :: vs => (reshapeF s v).bind fun a => (reshapeAll s vs).map (a :: ·)

/-- `unvec` (29-43); the outer `none` stands for an exception, the inner for the result `None`. -/
def unvec {α : Type} [Inhabited α] (s : List Nat) :
    Option (List α) → Option (Option (List (List Nat → α)))
  | none => some none
  | some v => (split3 v).bind fun ps => (reshapeAll s ps).map some

end Verif.Fdfd
