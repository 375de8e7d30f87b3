import Verif.Render.Draw
import Verif.Gds.Import
import Mathlib.Algebra.Order.Round
import Mathlib.Data.Complex.Basic
import Mathlib.Data.Real.Basic
import Mathlib.Algebra.Order.Archimedean.Real.Basic
/-
Model of how a plan of an inverse design problem describes the permittivity: stacks of layers and lists of meshes that are
drawn on a grid. spins/invdes/problem_graph/simspace.py 22, 196-328

Simplified: lengths are real numbers instead of floating point numbers; extents are pairs; the function `index` stands
for `_get_mat_index` at the wavelength of the call (C98), with `none` for an exception; reading the file is not modelled,
its layers are those of C68.
-/
namespace Verif.Render.Stack

open Verif.Render Verif.Render.Draw

/-- The exceptions. -/
inductive StackErr
  | gridError
  | material
  | valueError
  | notImplemented
  deriving DecidableEq

/-- `np.around` of a number: the nearest integer, and the even one of two that are equally near. -/
noncomputable def around (x : ℝ) : ℤ :=
  if x - ⌊x⌋ < 1 / 2 then ⌊x⌋ else if 1 / 2 < x - ⌊x⌋ then ⌊x⌋ + 1 else if ⌊x⌋ % 2 = 0 then ⌊x⌋ else ⌊x⌋ + 1

/-- `np.around(polygon * NM_PER_UM)`. simspace.py 22, 277, 323 -/
noncomputable def inNm (poly : List (ℝ × ℝ)) : List (ℝ × ℝ) :=
  poly.map fun p => ((around (p.1 * 1000) : ℝ), (around (p.2 * 1000) : ℝ))

/-- The cell of a file from which the polygons are taken, in micrometres. -/
abbrev Layers := Gds.Cell (List (ℝ × ℝ))

/-- `GDSImport.get_polygons`. parse_gds.py 54, 190-207 -/
def layerPolygons (gds : Layers) (layer : Nat × Nat) : List (List (ℝ × ℝ)) :=
  Gds.getPolygons (Gds.extractLayers gds) layer

/-- The list of shapes of a grid. -/
abbrev Shapes := List (Drawn ℝ (List (ℝ × ℝ)) (Fin 3 → ℂ))

/-- An exception of the grid. -/
def lift {α : Type} : Except DrawErr α → Except StackErr α
  | .error _ => .error .gridError
  | .ok a => .ok a

/-- A layer of a stack, `optplan.GdsMaterialStackLayer`. -/
structure StackLayer (M : Type) where
  gdsLayer : Nat × Nat
  lo : ℝ
  hi : ℝ
  foreground : M
  background : M

/-- A mesh: a slab, the polygons of a layer of the file, or of an unknown type. -/
inductive Mesh (M : Type)
  | slab (material : M) (lo hi : ℝ)
  | gdsMesh (material : M) (gdsLayer : Nat × Nat) (lo hi : ℝ)
  | other (material : M)

variable {M : Type}

/-- The loop over the polygons. simspace.py 276-282, 322-328 -/
noncomputable def drawPolygons (g : Grid3 ℝ) (center : Fin 3 → ℝ) (thickness : ℝ) (eps : ℂ) :
    List (List (ℝ × ℝ)) → Shapes → Except StackErr Shapes
  | [], list => .ok list
  | p :: ps, list =>
    match lift (drawPolygon3 g list center (inNm p) thickness fun _ => eps) with
    | .error e => .error e
    | .ok list' => drawPolygons g center thickness eps ps list'

/-- `_draw_mesh_on_grid`. simspace.py 241-284 -/
noncomputable def drawMesh (index : M → Option ℂ) (gds : Layers) (g : Grid3 ℝ) (mesh : Mesh M) (list : Shapes) :
    Except StackErr Shapes :=
  match mesh with
  | .slab m lo hi =>
    match index m with
    | none => .error .material
    | some n => lift (drawSlab g list g.ext ((lo + hi) / 2) (hi - lo) fun _ => n ^ 2)
  | .gdsMesh m layer lo hi =>
    match index m with
    | none => .error .material
    | some n =>
      drawPolygons g (fun a => if a = g.ext then (lo + hi) / 2 else 0) (hi - lo) (n ^ 2) (layerPolygons gds layer) list
  | .other m =>
    match index m with
    | none => .error .material
    | some _ => .error .valueError

/-- The loop over the meshes. simspace.py 229-230 -/
noncomputable def drawMeshes (index : M → Option ℂ) (gds : Layers) (g : Grid3 ℝ) :
    List (Mesh M) → Shapes → Except StackErr Shapes
  | [], list => .ok list
  | m :: ms, list =>
    match drawMesh index gds g m list with
    | .error e => .error e
    | .ok list' => drawMeshes index gds g ms list'

/-- One turn of the loop of `_draw_gds_on_grid`. simspace.py 305-328 -/
noncomputable def drawLayer (index : M → Option ℂ) (gds : Layers) (g : Grid3 ℝ) (s : StackLayer M) (list : Shapes) :
    Except StackErr Shapes :=
  match index s.background with
  | none => .error .material
  | some bg =>
    match index s.foreground with
    | none => .error .material
    | some fg =>
      match lift (drawSlab g list g.ext ((s.lo + s.hi) / 2) (s.hi - s.lo) fun _ => bg ^ 2) with
      | .error e => .error e
      | .ok list' =>
        drawPolygons g (fun a => if a = g.ext then (s.lo + s.hi) / 2 else 0) (s.hi - s.lo) (fg ^ 2)
          (layerPolygons gds s.gdsLayer) list'

/-- `_draw_gds_on_grid`. simspace.py 287-328 -/
noncomputable def drawGds (index : M → Option ℂ) (gds : Layers) (g : Grid3 ℝ) :
    List (StackLayer M) → Shapes → Except StackErr Shapes
  | [], list => .ok list
  | s :: ss, list =>
    match drawLayer index gds g s list with
    | .error e => .error e
    | .ok list' => drawGds index gds g ss list'

/-- The description of a permittivity, `optplan.EpsilonSpec`. -/
inductive EpsSpec (M : Type)
  | gds (background : M) (stack : List (StackLayer M))
  | gdsMesh (background : M) (meshes : List (Mesh M))
  | other

/-- `_create_grid` up to `grid.render()`: the grid, its initial permittivity and its shapes. The constructor of the grid
uses the default `periodic=False`. simspace.py 196-238 -/
noncomputable def createGrid (index : M → Option ℂ) (gds : Layers) (edges : Fin 3 → List ℝ) (ext : Int) :
    EpsSpec M → Except StackErr (Grid3 ℝ × ℂ × Shapes)
  | .gds background stack =>
    match index background with
    | none => .error .material
    | some n =>
      match lift (mkGrid edges (.inl false) ext) with
      | .error e => .error e
      | .ok g =>
        match drawGds index gds g stack [] with
        | .error e => .error e
        | .ok l => .ok (g, n ^ 2, l)
  | .gdsMesh background meshes =>
    match index background with
    | none => .error .material
    | some n =>
      match lift (mkGrid edges (.inl false) ext) with
      | .error e => .error e
      | .ok g =>
        match drawMeshes index gds g meshes [] with
        | .error e => .error e
        | .ok l => .ok (g, n ^ 2, l)
  | .other => .error .notImplemented

end Verif.Render.Stack
