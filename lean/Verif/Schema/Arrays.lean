import Mathlib.Data.Complex.Basic
/-
Model of the types of arrays and complex numbers in saved plans: `spins/goos/optplan/schema_types.py` (`ComplexNumberType`,
`NumpyArrayType`), with numpy's `tolist` and `np.array` of nested lists.

Simplifications. Entries are of one type: the type of numbers of an array (`dtype`) is not modelled. A number is an array without
axes. Nested lists of different lengths are an error (before numpy 1.24 they gave an array of objects). The parts of a complex array
must have the same shape (numpy would broadcast them).
-/
namespace Verif.Schema.Arrays

variable {α : Type}

/-- Nested lists. -/
inductive Nested (α : Type)
  | leaf (x : α)
  | list (l : List (Nested α))

/-- An array: its shape and its entries, the last axis running fastest. -/
structure Arr (α : Type) where
  shape : List Nat
  data : List α
deriving DecidableEq

/-- `ndarray.tolist`. -/
def tolist [Inhabited α] : List Nat → List α → Nested α
  | [], d => .leaf (d.headD default)
  | n :: s, d => .list ((List.range n).map fun i => tolist s ((d.drop (i * s.prod)).take s.prod))

mutual
/-- The shape that `np.array` finds for nested lists: all members of a list must have the same. -/
def shapeOf : Nested α → Option (List Nat)
  | .leaf _ => some []
  | .list l =>
    match shapesOf l with
    | none => none
    | some [] => some [0]
    | some (s :: ss) => if ss.all (fun t => decide (t = s)) then some ((ss.length + 1) :: s) else none
def shapesOf : List (Nested α) → Option (List (List Nat))
  | [] => some []
  | x :: xs =>
    match shapeOf x, shapesOf xs with
    | some s, some ss => some (s :: ss)
    | _, _ => none
end

mutual
/-- The entries of nested lists. -/
def flat : Nested α → List α
  | .leaf x => [x]
  | .list l => flats l
def flats : List (Nested α) → List α
  | [] => []
  | x :: xs => flat x ++ flats xs
end

/-- `np.array` of nested lists. -/
def asarray (j : Nested α) : Option (Arr α) := (shapeOf j).map fun s => ⟨s, flat j⟩

/-- What is written to a file for an array: nested lists, or a dictionary with the real and imaginary parts. -/
inductive Primitive
  | plain (j : Nested ℝ)
  | parts (re im : Nested ℝ)

/-- Arrays of real and of complex numbers. -/
inductive Value
  | real (a : Arr ℝ)
  | complex (a : Arr ℂ)

/-- `NumpyArrayType.to_primitive`. schema_types.py 52-60 -/
noncomputable def toPrimitive : Value → Primitive
  | .real a => .plain (tolist a.shape a.data)
  | .complex a => .parts (tolist a.shape (a.data.map Complex.re)) (tolist a.shape (a.data.map Complex.im))

/-- `NumpyArrayType.to_native`. schema_types.py 43-50 -/
noncomputable def toNative : Primitive → Option Value
  | .plain j => (asarray j).map .real
  | .parts re im =>
    match asarray re, asarray im with
    | some a, some b =>
      if a.shape = b.shape then some (.complex ⟨a.shape, List.zipWith (fun (x y : ℝ) => (x : ℂ) + Complex.I * (y : ℂ)) a.data b.data⟩)
      else none
    | _, _ => none

/-- `ComplexNumberType.to_primitive`. schema_types.py 30-33 -/
def complexToPrimitive (z : ℂ) : List ℝ := [z.re, z.im]

/-- `ComplexNumberType.to_native` of a list; `none` is the `ValueError`. schema_types.py 18-28 -/
noncomputable def complexToNative : List ℝ → Option ℂ
  | [a, b] => some ((a : ℂ) + Complex.I * (b : ℂ))
  | _ => none

end Verif.Schema.Arrays
