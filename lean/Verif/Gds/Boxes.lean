import Verif.Gds.Import
import Mathlib.Algebra.Order.Field.Basic

/-!
# Bounding boxes of imported polygons

`Box`, `get_bounding_box` and `get_bounding_boxes` of spins/gds/parse_gds.py.
Coordinates are elements of an ordered field, without rounding.
-/

namespace Verif.Gds

variable {K : Type} [Field K] [LinearOrder K]

/-- The named tuple `Box` (parse_gds.py 9-17). -/
structure Box (K : Type) where
  xMin : K
  xMax : K
  yMin : K
  yMax : K
  deriving DecidableEq

/-- `Box.center` (parse_gds.py 19-23). -/
def Box.center (b : Box K) : K × K := ((b.xMin + b.xMax) / 2, (b.yMin + b.yMax) / 2)

/-- `Box.extents` (parse_gds.py 25-29). -/
def Box.extents (b : Box K) : K × K := (b.xMax - b.xMin, b.yMax - b.yMin)

/-- Python's `max` of a sequence; `none` for the error on an empty one. -/
def pyMax : List K → Option K
  | [] => none
  | a :: l => some (l.foldl max a)

/-- Python's `min` of a sequence. -/
def pyMin : List K → Option K
  | [] => none
  | a :: l => some (l.foldl min a)

/-- `GDSImport.get_bounding_box` (parse_gds.py 137-165); `none` for the error on a
polygon without points. -/
def boundingBox (poly : List (K × K)) : Option (Box K) :=
  (pyMax (poly.map (·.1))).bind fun xM => (pyMin (poly.map (·.1))).bind fun xm =>
    (pyMax (poly.map (·.2))).bind fun yM => (pyMin (poly.map (·.2))).map fun ym =>
      ⟨xm * 1000, xM * 1000, ym * 1000, yM * 1000⟩

/-- `GDSImport.get_bounding_boxes` (parse_gds.py 167-188). -/
def boundingBoxes (layers : List ((Nat × Nat) × List (List (K × K)))) (layer : Nat × Nat) :
    Option (List (Box K)) :=
  match layers.find? fun x => x.1 = layer with
  | none => some []
  | some x => x.2.mapM boundingBox

end Verif.Gds
