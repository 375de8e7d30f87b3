import Verif.Render.Stack
import Verif.Render.DrawSpec
/-
C102: what a stack of layers, or a list of meshes, says about the index of refraction at a point. The plane of the layers
is `x`, in nanometres, and `z` is the height.
-/
namespace Verif.Render.Stack

open Verif.Render Verif.Render.Draw

variable {M : Type}

/-- The point is in one of the polygons of a layer of the file, with their vertices moved to whole nanometres. -/
def InLayer (gds : Layers) (layer : Nat × Nat) (x : ℝ × ℝ) : Prop :=
  ∃ e ∈ gds.sets, e.key = layer ∧ ∃ p ∈ e.polygons, insideOf (inNm p) x = true

open Classical in
/-- The material of a stack at a point: the last layer at that height counts, with its foreground inside of the polygons
and its background outside of them, and the background of the stack at heights without a layer. -/
noncomputable def stackAt (gds : Layers) (background : M) (stack : List (StackLayer M)) (x : ℝ × ℝ) (z : ℝ) : M :=
  match (stack.filter fun s => decide (s.lo < z ∧ z < s.hi)).getLast? with
  | none => background
  | some s => if InLayer gds s.gdsLayer x then s.foreground else s.background

/-- The point is in the mesh. -/
def InMesh (gds : Layers) (x : ℝ × ℝ) (z : ℝ) : Mesh M → Prop
  | .slab _ lo hi => lo < z ∧ z < hi
  | .gdsMesh _ layer lo hi => lo < z ∧ z < hi ∧ InLayer gds layer x
  | .other _ => False

/-- The material of a mesh. -/
def material : Mesh M → M
  | .slab m _ _ => m
  | .gdsMesh m _ _ _ => m
  | .other m => m

open Classical in
/-- The material of a list of meshes at a point: that of the last mesh that contains it. -/
noncomputable def meshesAt (gds : Layers) (background : M) (meshes : List (Mesh M)) (x : ℝ × ℝ) (z : ℝ) : M :=
  match (meshes.filter fun m => decide (InMesh gds x z m)).getLast? with
  | none => background
  | some m => material m

/-- The permittivity that is described, the square of the index of refraction. -/
noncomputable def describedAt (index : M → Option ℂ) (gds : Layers) : EpsSpec M → (ℝ × ℝ) → ℝ → ℂ
  | .gds background stack, x, z => ((index (stackAt gds background stack x z)).getD 0) ^ 2
  | .gdsMesh background meshes, x, z => ((index (meshesAt gds background meshes x z)).getD 0) ^ 2
  | .other, _, _ => 0

/-- All polygons of the layer have at least three vertices. -/
def Polygonal (gds : Layers) (layer : Nat × Nat) : Prop :=
  ∀ e ∈ gds.sets, e.key = layer → ∀ p ∈ e.polygons, 3 ≤ p.length

/-- A layer of the file has polygons. -/
def HasPolygons (gds : Layers) (layer : Nat × Nat) : Prop := ∃ e ∈ gds.sets, e.key = layer ∧ e.polygons ≠ []

/-- A mesh that can be drawn: its material is known and it has a thickness. -/
def Drawable (index : M → Option ℂ) (gds : Layers) : Mesh M → Prop
  | .slab m lo hi => (index m).isSome ∧ lo < hi
  | .gdsMesh m layer lo hi => (index m).isSome ∧ (HasPolygons gds layer → lo < hi) ∧ Polygonal gds layer
  | .other _ => False

/-- A description that can be drawn. -/
def Describes (index : M → Option ℂ) (gds : Layers) : EpsSpec M → Prop
  | .gds background stack => (index background).isSome ∧ ∀ s ∈ stack, (index s.background).isSome ∧
      (index s.foreground).isSome ∧ s.lo < s.hi ∧ Polygonal gds s.gdsLayer
  | .gdsMesh background meshes => (index background).isSome ∧ ∀ m ∈ meshes, Drawable index gds m
  | .other => False

/-- A whole number of nanometres. -/
def Integral (x : ℝ) : Prop := ∃ i : ℤ, x = i

/-- The extents of the layers and meshes are whole nanometres. -/
def Whole : EpsSpec M → Prop
  | .gds _ stack => ∀ s ∈ stack, Integral s.lo ∧ Integral s.hi
  | .gdsMesh _ meshes => ∀ m ∈ meshes, match m with
    | .slab _ lo hi => Integral lo ∧ Integral hi
    | .gdsMesh _ _ lo hi => Integral lo ∧ Integral hi
    | .other _ => True
  | .other => True

/-- The point is in the area of the grid. The components of the field are shifted by half a cell, so this reaches half a
cell in front of the first edge. -/
def InGrid (g : Grid3 ℝ) (x : ℝ × ℝ) : Prop :=
  ∀ a : Fin 3, ∀ y : ℝ, (a = (planeAxes g.ext).1 ∧ y = x.1 ∨ a = (planeAxes g.ext).2 ∧ y = x.2) →
    (g.exyz a).getD 0 0 - ((g.exyz a).getD ((g.exyz a).length - 1) 0 - (g.exyz a).getD ((g.exyz a).length - 2) 0) / 2 < y ∧
      y ≤ (g.exyz a).getD ((g.exyz a).length - 1) 0

end Verif.Render.Stack
