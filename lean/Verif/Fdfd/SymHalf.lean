import Verif.Fdfd.Operators
import Verif.Fdfd.Cells
/-
Model of the reduction by reflection symmetry in `MaxwellSolver.solve` (`spins/fdfd_solvers/maxwell.py` 124-206,
230-261, 313-393): the inputs are cut to one half along each axis with a symmetry, the server solves the half
problem, and the result is mirrored. The server is any function. Without Bloch vector and for one field (no
Jacobi-Davidson). `dxes` are the stretched widths (132); the files the fields travel in are the subject of C99.
-/
namespace Verif.Fdfd.Half

/-- An array with three axes: its shape and its entries; the entries outside of the shape have no meaning. -/
structure NArr where
  shape : Fin 3 → Nat
  val : (Fin 3 → Nat) → ℂ

/-- `-X`. -/
def NArr.neg (X : NArr) : NArr := ⟨X.shape, fun i => -X.val i⟩

/-- `np.flip(X, ax)`. -/
def NArr.flip (X : NArr) (ax : Fin 3) : NArr := ⟨X.shape, fun i => X.val (Function.update i ax (X.shape ax - 1 - i ax))⟩

/-- `X[1:]` along `ax`. -/
def NArr.tail (X : NArr) (ax : Fin 3) : NArr :=
  ⟨Function.update X.shape ax (X.shape ax - 1), fun i => X.val (Function.update i ax (i ax + 1))⟩

/-- `np.expand_dims(np.zeros_like(X[0]), ax)`, the first layer along `ax` with all entries zero (316, 331, 344). -/
def NArr.dummy (X : NArr) (ax : Fin 3) : NArr := ⟨Function.update X.shape ax 1, fun _ => 0⟩

/-- `np.concatenate((X, Y), axis=ax)` of two arrays with the same lengths along the other axes. -/
def NArr.concat (X Y : NArr) (ax : Fin 3) : NArr :=
  ⟨Function.update X.shape ax (X.shape ax + Y.shape ax),
    fun i => if i ax < X.shape ax then X.val i else Y.val (Function.update i ax (i ax - X.shape ax))⟩

/-- The part of `apply_symmetry` for one axis (316-329 for x, 331-342 for y, 344-356 for z): the component along the
axis, and the two others. -/
def applyAxis (symmetry : Nat) (ax : Fin 3) (E : Fin 3 → NArr) : Fin 3 → NArr :=
  let dummy := (E 1).dummy ax
  if symmetry = 1 then fun a =>
    if a = ax then ((E a).flip ax).concat (E a) ax
    else (dummy.concat (((E a).tail ax).flip ax).neg ax).concat (E a) ax
  else if symmetry = 2 then fun a =>
    if a = ax then ((E a).flip ax).neg.concat (E a) ax
    else (dummy.concat (((E a).tail ax).flip ax) ax).concat (E a) ax
  else E

/-- `apply_symmetry` (315-358). -/
def applySymmetry (symmetry : Fin 3 → Nat) (E : Fin 3 → NArr) : Fin 3 → NArr :=
  applyAxis (symmetry 2) 2 (applyAxis (symmetry 1) 1 (applyAxis (symmetry 0) 0 E))

/-- The start of the slice along an axis (151-169). -/
def sliceStart (symmetry n : Nat) : Nat := if symmetry = 1 ∨ symmetry = 2 then n / 2 else 0

/-- The entries of `pemc` for the two sides of an axis (152-169), if the caller gave `pemc`. -/
def pemcOf (symmetry : Fin 3 → Nat) (pemc : Fin 3 → Fin 2 → Nat) : Fin 3 → Fin 2 → Nat := fun ax side =>
  if symmetry ax = 1 then 1 else if symmetry ax = 2 then 2 else pemc ax side

/-- What the server is given. -/
structure Problem where
  omega : ℂ
  shape : Fin 3 → Nat
  dxes : Dxes
  J : Fin 3 → NArr
  epsilon : Fin 3 → NArr
  mu : Fin 3 → NArr
  E0 : Fin 3 → NArr
  pemc : Fin 3 → Fin 2 → Nat

/-- `j[tuple(slices)]` (171-174). -/
def NArr.cut (X : NArr) (start : Fin 3 → Nat) : NArr := ⟨fun a => X.shape a - start a, fun i => X.val fun a => start a + i a⟩

/-- The reduction to one half (146-175). -/
def Problem.cut (P : Problem) (symmetry : Fin 3 → Nat) : Problem :=
  let start : Fin 3 → Nat := fun a => sliceStart (symmetry a) (P.shape a)
  { omega := P.omega
    shape := fun a => P.shape a - start a
    dxes := ⟨fun a i => P.dxes.e a (start a + i), fun a i => P.dxes.h a (start a + i)⟩
    J := fun a => (P.J a).cut start
    epsilon := fun a => (P.epsilon a).cut start
    mu := fun a => (P.mu a).cut start
    E0 := fun a => (P.E0 a).cut start
    pemc := pemcOf symmetry P.pemc }

/-- The arrays `s` (188-201) of a problem. -/
noncomputable def Problem.areas (P : Problem) (a : Fin 3) : NArr :=
  ⟨P.shape, fun i => ∏ b, if b = a then P.dxes.e b (i b) else P.dxes.h b (i b)⟩

/-- The changes for the adjoint problem (177-206). -/
noncomputable def Problem.adjoint (P : Problem) : Problem :=
  let Q : Problem :=
    { P with
      omega := star P.omega
      mu := fun a => ⟨(P.mu a).shape, fun i => star ((P.mu a).val i)⟩
      epsilon := fun a => ⟨(P.epsilon a).shape, fun i => star ((P.epsilon a).val i)⟩
      dxes := ⟨fun a i => star (P.dxes.e a i), fun a i => star (P.dxes.h a i)⟩ }
  { Q with J := fun a => ⟨(P.J a).shape, fun i => (P.J a).val i / star ((Q.areas a).val i)⟩ }

/-- `np.multiply(X, Y)`: lengths that differ, and are not one, raise an error. -/
noncomputable def NArr.multiply (X Y : NArr) : Option NArr :=
  if ∀ a, X.shape a = Y.shape a ∨ X.shape a = 1 ∨ Y.shape a = 1 then
    some ⟨fun a => max (X.shape a) (Y.shape a), fun i =>
      X.val (fun a => if X.shape a = 1 then 0 else i a) * Y.val (fun a => if Y.shape a = 1 then 0 else i a)⟩
  else none

/-- The fields `solve` returns (146-206, 313-393); `none` is an exception. -/
noncomputable def solve (server : Problem → Fin 3 → NArr) (symmetry : Fin 3 → Nat) (adjoint : Bool) (P : Problem) :
    Option (Fin 3 → NArr) :=
  let Q := P.cut symmetry
  if adjoint then
    let E := applySymmetry symmetry (server Q.adjoint)
    let s : Fin 3 → NArr := fun a => ⟨Q.shape, fun i => star ((Q.adjoint.areas a).val i)⟩
    match (E 0).multiply (s 0), (E 1).multiply (s 1), (E 2).multiply (s 2) with
    | some x, some y, some z => some ![x, y, z]
    | _, _, _ => none
  else some (applySymmetry symmetry (server Q))

end Verif.Fdfd.Half
