import Verif.Render.Grid
import Verif.Render.Direction
import Verif.Fdfd.Vec
import Mathlib.Algebra.Order.Archimedean.Real.Basic
/-
Model of the cutting of arrays for monitors and plots: `FieldMonitor` (`spins/invdes/problem_graph/creator_monitor.py`)
and `make_slice` with its callers (`spins/goos/util.py`).
-/
namespace Verif.Render.View
open Verif.Fdfd

/-- An array: its shape and its entries. -/
structure Arr (α : Type) where
  shape : List Nat
  get : List Nat → α

/-- A Python slice `slice(start, stop)`, `none` for `None`. -/
structure Sl where
  start : Option Int
  stop : Option Int

/-- How Python reads a bound of a slice on an axis with `n` entries. -/
def bound (n : Nat) (a : Int) : Nat := if a < 0 then (a + n).toNat else min a.toNat n

/-- The first selected entry and the one after the last. -/
def Sl.range (s : Sl) (n : Nat) : Nat × Nat := ((s.start.map (bound n)).getD 0, (s.stop.map (bound n)).getD n)

/-- `a[slices]` with one slice per axis. -/
def Arr.cut {α : Type} (a : Arr α) (s : List Sl) : Arr α where
  shape := List.zipWith (fun s n => (s.range n).2 - (s.range n).1) s a.shape
  get := fun idx => a.get (List.zipWith (fun (p : Sl × Nat) i => (p.1.range p.2).1 + i) (List.zip s a.shape) idx)

/-- `FieldMonitor.__init__`: the slices, `none` if no slice is asked for. The outer `none` is the `ValueError` of
`axisvec2axis` or the `GridError` of `pos2ind`. `e` are the edges of the grid. creator_monitor.py 75-84 -/
noncomputable def monitorSlices (e : Fin 3 → List ℝ) (point normal : Option (Fin 3 → ℝ)) : Option (Option (List Sl)) :=
  match point, normal with
  | some p, some v =>
    (axisvec2axis v).bind fun ax =>
      if ∀ a, inBounds ((e a).length - 1) (e a) (p a) = true then
        let ind := pos2ind (e ax) (p ax)
        some (some (((List.range 3).map fun _ => Sl.mk (some 0) none).set ax.1 ⟨some ind, some (ind + 1)⟩))
      else none
  | _, _ => some none

/-- `FieldMonitor.eval`; `none` if the number of values does not fit the grid. creator_monitor.py 86-102 -/
def monitorEval {α : Type} [Inhabited α] (dims : List Nat) (slices : Option (List Sl)) (v : List α) :
    Option (List (Arr α)) :=
  match unvec dims (some v) with
  | some (some fields) =>
    some (match slices with
      | some s => fields.map fun f => (Arr.mk dims f).cut s
      | none => fields.map fun f => Arr.mk dims f)
  | _ => none

/-- An argument of `make_slice`: an index, `"center"`, or nothing. -/
inductive Coord where
  | ind (i : Int)
  | center
  | none

/-- Lines `if x == "center": x = shape[a] // 2` and `if x: slicer[a] = slice(x, x + 1)` for one coordinate. The
condition is false for `None` and for 0. goos/util.py 144-156 -/
def coordSlice (c : Coord) (n : Nat) : Sl :=
  let x : Option Int := match c with
    | .ind i => some i
    | .center => some (n / 2 : Nat)
    | .none => Option.none
  match x with
  | some i => if i = 0 then ⟨Option.none, Option.none⟩ else ⟨some i, some (i + 1)⟩
  | Option.none => ⟨Option.none, Option.none⟩

/-- `make_slice(x, y, z, shape)`; only the first three entries of the shape are read. goos/util.py 142-157 -/
def makeSlice (x y z : Coord) (shape : List Nat) : List Sl :=
  [coordSlice x (shape.getD 0 0), coordSlice y (shape.getD 1 0), coordSlice z (shape.getD 2 0)]

/-- What `visualize_eps` shows. goos/util.py 107-109 -/
def shownEps {α : Type} (eps : Arr α) (x y z : Coord) : Arr α := eps.cut (makeSlice x y z eps.shape)

/-- What `visualize_fields` shows of component `c`: `fields[c][slicer]`, where the slicer is made for the shape of the
array of all components. goos/util.py 70-80 -/
def shownField {α : Type} (fields : Arr α) (c : Nat) (x y z : Coord) : Arr α :=
  (Arr.mk fields.shape.tail fun idx => fields.get (c :: idx)).cut (makeSlice x y z fields.shape)

end Verif.Render.View
