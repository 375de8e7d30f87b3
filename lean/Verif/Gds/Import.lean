/-
Model of `GDSImport`, spins/gds/parse_gds.py: the choice of the top level cell, and polygons and boxes by layer. Reading the file
and flattening cells are gdspy's part; a cell is given by what the code asks of it.
-/
namespace Verif.Gds

/-- A set of polygons of the flattened cell: the layer and datatype of its first polygon, and its polygons. -/
structure PolygonSet (Poly : Type) where
  key : Nat × Nat
  polygons : List Poly

/-- A top level cell, flattened; `hidden` if its name starts with "$$$". -/
structure Cell (Poly : Type) where
  name : Nat
  hidden : Bool
  sets : List (PolygonSet Poly)

variable {Poly : Type}

/-- `num_polys` of a cell. 104-110 -/
def numPolys (c : Cell Poly) : Nat := c.sets.foldl (fun n s => n + s.polygons.length) 0

/-- The loop over the cells with `max_num_polys` and `max_poly_tlc`; `none` for the `ValueError` for equal numbers. 97-119 -/
def pickLoop : Nat → Option (Cell Poly) → List (Cell Poly) → Option (Nat × Option (Cell Poly))
  | m, best, [] => some (m, best)
  | m, best, c :: cs =>
    if c.hidden then pickLoop m best cs
    else if m = numPolys c then none
    else if m < numPolys c then pickLoop (numPolys c) (some c) cs
    else pickLoop m best cs

/-- `GDSImport._get_top_level_cell`, `none` for an exception. 82-135 -/
def getTopLevelCell (name : Option Nat) (cells : List (Cell Poly)) : Option (Cell Poly) :=
  match name with
  | none =>
    match pickLoop 0 none cells with
    | none => none
    | some (m, best) => if m > 0 then best else none
  | some n => cells.find? fun c => c.name = n

/-- `layers[key] += polygons`, with a new entry at the end if there is none. 76-78 -/
def addLayer (key : Nat × Nat) (ps : List Poly) : List ((Nat × Nat) × List Poly) → List ((Nat × Nat) × List Poly)
  | [] => [(key, [] ++ ps)]
  | (k, l) :: rest => if k = key then (k, l ++ ps) :: rest else (k, l) :: addLayer key ps rest

/-- `GDSImport._extract_layers`. 55-80 -/
def extractLayers (c : Cell Poly) : List ((Nat × Nat) × List Poly) :=
  c.sets.foldl (fun layers s => addLayer s.key s.polygons layers) []

/-- `GDSImport.get_polygons`. 189-207 -/
def getPolygons (layers : List ((Nat × Nat) × List Poly)) (layer : Nat × Nat) : List Poly :=
  match layers.find? fun x => x.1 = layer with
  | some x => x.2
  | none => []

end Verif.Gds
