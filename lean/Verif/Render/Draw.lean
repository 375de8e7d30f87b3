import Verif.Render.Paint
import Verif.Render.Polygon
/-
Model of drawing on a `Grid` (`spins/gridlock/grid.py`) with all three axes: the constructor, the drawing functions, and
`render` with the windows of cells that each polygon is added to. Exact arithmetic in an ordered field. The boolean
operation of gdspy is a parameter (`Polygons`), as in `Verif.Render.Paint`.
-/
namespace Verif.Render.Draw

open Verif.Render Verif.Render.Polygon

variable {K : Type} [Field K] [LinearOrder K]
variable {R E : Type}

/-- What drawing raises. -/
inductive DrawErr
  | gridError
  /-- numpy's own errors for arrays that do not fit. -/
  | valueError
  /-- `dir_slab` is not defined in `fill_cuboid` and `fill_slab` (630, 663). -/
  | nameError
  /-- raised by `raster_2D`. -/
  | raster (e : Polygon.Err)
  deriving DecidableEq

/-- A `Grid`: the edges, the periodicity and the shifts of the primary and of the complementary grid for each component and
axis, and the extrusion axis. grid.py 337-435 -/
structure Grid3 (K : Type) where
  exyz : Fin 3 → List K
  periodic : Fin 3 → Bool
  shift : Fin 3 → Fin 3 → K
  comp : Fin 3 → Fin 3 → K
  ext : Fin 3

/-- `np.unique`. -/
def unique (l : List K) : List K := l.dedup.insertionSort (· ≤ ·)

/-- The periodicity of the axes: one flag is used for all of them, and a list of flags is replaced by `False`. grid.py 358-361 -/
def periodicFlag : Bool ⊕ List Bool → Bool
  | .inl b => b
  | .inr _ => false

/-- `Grid.__init__` with the shifts of the Yee grid (the default, 54-57). The warning for repeated edges is not modelled. grid.py
337-435 -/
def mkGrid (edges : Fin 3 → List K) (periodic : Bool ⊕ List Bool) (ext : Int) : Except DrawErr (Grid3 K) :=
  let grid (x : Fin 3) : Grid3 K :=
    { exyz := fun a => unique (edges a)
      periodic := fun _ => periodicFlag periodic
      shift := fun n a => if a = n then 1 / 2 else 0
      comp := fun n a => if a = n then 0 else 1 / 2
      ext := x }
  if ext = 0 then .ok (grid 0)
  else if ext = 1 then .ok (grid 1)
  else if ext = 2 then .ok (grid 2)
  else .error .gridError

/-- `planar_dir`. grid.py 424 -/
def planar (ext : Fin 3) : Fin 3 × Fin 3 := if ext = 0 then (1, 2) else if ext = 1 then (0, 2) else (0, 1)

/-- `Grid.center`. grid.py 105-115 -/
def center (g : Grid3 K) (a : Fin 3) : K :=
  let e := g.exyz a
  (at' e 0 + at' e 1 + at' e (e.length - 2) + at' e (e.length - 1)) / 4

/-! ### Drawing -/

/-- `draw_polygon`. The polygon is moved by the centre; `Render.drawPolygon` makes the checks and finds the extent along
the extrusion axis. grid.py 468-510 -/
def drawPolygon3 (g : Grid3 K) (list : List (Drawn K (List (K × K)) E)) (c : Fin 3 → K) (poly : List (K × K))
    (thickness : K) (eps : E) : Except DrawErr (List (Drawn K (List (K × K)) E)) :=
  match drawPolygon list (poly.map fun p => (p.1 + c (planar g.ext).1, p.2 + c (planar g.ext).2)) poly.length (c g.ext)
    thickness eps with
  | none => .error .gridError
  | some l => .ok l

/-- `draw_cuboid`. grid.py 512-545 -/
def drawCuboid (g : Grid3 K) (list : List (Drawn K (List (K × K)) E)) (c extent : Fin 3 → K) (eps : E) :
    Except DrawErr (List (Drawn K (List (K × K)) E)) :=
  let x := extent (planar g.ext).1
  let y := extent (planar g.ext).2
  drawPolygon3 g list c [(1 / 2 * -x, 1 / 2 * y), (1 / 2 * x, 1 / 2 * y), (1 / 2 * x, 1 / 2 * -y), (1 / 2 * -x, 1 / 2 * -y)]
    (extent g.ext) eps

/-- `draw_slab` with a direction in `range(3)`. grid.py 582-612 -/
def drawSlab (g : Grid3 K) (list : List (Drawn K (List (K × K)) E)) (dir : Fin 3) (c thickness : K) (eps : E) :
    Except DrawErr (List (Drawn K (List (K × K)) E)) :=
  drawCuboid g list (fun a => if a ≠ dir then center g a else c)
    (fun a => if a ≠ dir then 2 * |at' (g.exyz a) ((g.exyz a).length - 1) - at' (g.exyz a) 0| else thickness) eps

/-- How a direction is given to the `fill_` functions. -/
inductive FillDir
  | direction (a : Fin 3)
  | number (k : Int)
  deriving DecidableEq

/-- The edge of the grid up to which is filled. grid.py 644-645, 674-675 -/
def edgeLimit (g : Grid3 K) (a : Fin 3) (pol : Int) : K :=
  if pol = -1 then at' (g.exyz a) 0 else at' (g.exyz a) ((g.exyz a).length - 1)

/-- `fill_slab`. A direction given as a number raises `NameError`, since line 663 tests `dir_slab`. grid.py 655-678 -/
def fillSlab (g : Grid3 K) (list : List (Drawn K (List (K × K)) E)) (dir : FillDir) (pol : Int) (surf : K) (eps : E) :
    Except DrawErr (List (Drawn K (List (K × K)) E)) :=
  match dir with
  | .number _ => .error .nameError
  | .direction a =>
    if pol = -1 ∨ pol = 1 then
      let t := 2 * |edgeLimit g a pol - surf|
      drawSlab g list a (surf + 1 / 2 * pol * t) t eps
    else .error .gridError

/-- `np.insert(v, a, x)` for a pair `v`. -/
def insert3 (v : K × K) (a : Fin 3) (x : K) (b : Fin 3) : K :=
  if b = a then x else if b = (planar a).1 then v.1 else v.2

/-- `fill_cuboid`. `np.insert` casts the depth to the type of `surf_extent`; `ints` says that this is an integer type.
grid.py 614-653 -/
def fillCuboid [FloorRing K] (g : Grid3 K) (list : List (Drawn K (List (K × K)) E)) (dir : FillDir) (pol : Int)
    (surf : Fin 3 → K) (surfExtent : K × K) (ints : Bool) (eps : E) : Except DrawErr (List (Drawn K (List (K × K)) E)) :=
  match dir with
  | .number _ => .error .nameError
  | .direction a =>
    if pol = -1 ∨ pol = 1 then
      let depth := 2 * |edgeLimit g a pol - surf a|
      let extent := insert3 surfExtent a (if ints then truncate depth else depth)
      drawCuboid g list (fun b => if b ≠ a then surf b else surf b + 1 / 2 * pol * extent b) extent eps
    else .error .gridError

/-! ### Rendering -/

/-- The array of one component: the permittivity and the background fraction of each cell. -/
abbrev Cells (K E : Type) := (Fin 3 → Nat) → E × K

/-- Whether a cell is in a window. -/
def inWindow (w : Nat × Nat × List K) (k : Nat) : Prop := w.1 ≤ k ∧ k < w.2.1 + 1

instance (w : Nat × Nat × List K) (k : Nat) : Decidable (inWindow w k) := inferInstanceAs (Decidable (_ ∧ _))

/-- Whether the weights of a window have the length of the slice of the array (`+=` raises otherwise). -/
def fits (w : Nat × Nat × List K) (n : Nat) : Prop := w.2.2.length - 1 = min (w.2.1 + 1) n - w.1

instance (w : Nat × Nat × List K) (n : Nat) : Decidable (fits w n) := inferInstanceAs (Decidable (_ = _))

section
variable [FloorRing K] [AddCommGroup E] [Module K E]

/-- `render_polygon` for one component. grid.py 774-896 -/
def renderComponent (g : Grid3 K) (n : Fin 3) (poly : List (K × K)) (z0 z1 : K) (eps : E) (f : Cells K E) :
    Except DrawErr (Cells K E) :=
  match poly with
  | [] => .error .gridError
  | p :: l =>
    if (p :: l).length ≤ 2 then .error .gridError
    else
      let a := (planar g.ext).1
      let b := (planar g.ext).2
      let wx := axisWindow (g.periodic a) (g.shift n a) (g.comp n a) (g.exyz a) (lowest p.1 (l.map Prod.fst))
        (highest p.1 (l.map Prod.fst))
      let wy := axisWindow (g.periodic b) (g.shift n b) (g.comp n b) (g.exyz b) (lowest p.2 (l.map Prod.snd))
        (highest p.2 (l.map Prod.snd))
      let wz := zWindow (g.periodic g.ext) (g.shift n g.ext) (g.comp n g.ext) (g.exyz g.ext) z0 z1
      match raster2D (p :: l) wx.2.2 wy.2.2 with
      | .error e => .error (.raster e)
      | .ok img =>
        match raster1D [z0, z1] wz.2.2 with
        | none => .error .valueError
        | some w =>
          if fits wx ((g.exyz a).length - 1) ∧ fits wy ((g.exyz b).length - 1) ∧ fits wz ((g.exyz g.ext).length - 1) then
            .ok fun c =>
              if inWindow wx (c a) ∧ inWindow wy (c b) ∧ inWindow wz (c g.ext) then
                renderPolygon (f c) (at' (img.getD (c a - wx.1) []) (c b - wy.1) * at' w (c g.ext - wz.1)) eps
              else f c
          else .error .valueError

/-- The polygons of one layer. The components are independent of each other, so that each can be followed on its own (in the
code the loop over the components is the innermost one). grid.py 957-964 -/
def renderPieces (g : Grid3 K) (n : Fin 3) (outline : R → List (K × K)) (z0 z1 : K) :
    List (R × (Fin 3 → E)) → Cells K E → Except DrawErr (Cells K E)
  | [], f => .ok f
  | p :: ps, f =>
    match renderComponent g n (outline p.1) z0 z1 (p.2 n) f with
    | .error e => .error e
    | .ok f' => renderPieces g n outline z0 z1 ps f'

/-- The layers from number `i`. grid.py 956-964 -/
def renderLayers3 (g : Grid3 K) (n : Fin 3) (outline : R → List (K × K)) (lz : List K) :
    List (List (R × (Fin 3 → E))) → Nat → Cells K E → Except DrawErr (Cells K E)
  | [], _, f => .ok f
  | ps :: ls, i, f =>
    match renderPieces g n outline (at' lz i) (at' lz (i + 1)) ps f with
    | .error e => .error e
    | .ok f' => renderLayers3 g n outline lz ls (i + 1) f'

/-- `Grid.render` for the component `n`. `bg` are the values of `grids_bg`, and `outline` gives the vertices of a polygon.
grid.py 916-968 -/
def render3 (g : Grid3 K) (gd : Polygons R) (outline : R → List (K × K)) (bg : (Fin 3 → Nat) → E) (n : Fin 3)
    (disableIntersection : Bool) (l : List (Drawn K R (Fin 3 → E))) : Except DrawErr ((Fin 3 → Nat) → E) :=
  let layers := if disableIntersection then computeLayers l else (computeLayers l).map (reduceLayer gd)
  match renderLayers3 g n outline (layerZ l) layers 0 (fun _ => (0, 1)) with
  | .error e => .error e
  | .ok f => .ok fun c => (f c).1 + (f c).2 • bg c

end

/-- `check_bounding_box`, as the answer that the polygons are apart (it returns `False`). The second comparison of each
line compares the second polygon with itself. A polygon without vertices (numpy raises) is not modelled. grid.py 708-726 -/
def apartBox (p q : List (K × K)) : Bool :=
  match p, q with
  | u :: l, v :: m =>
    let x1 := highest u.1 (l.map Prod.fst)
    let y1 := highest u.2 (l.map Prod.snd)
    let x2 := highest v.1 (m.map Prod.fst)
    let y2 := highest v.2 (m.map Prod.snd)
    let a2 := lowest v.1 (m.map Prod.fst)
    let b2 := lowest v.2 (m.map Prod.snd)
    if x1 < a2 ∨ x2 < a2 then true
    else if y1 < b2 ∨ y2 < b2 then true
    else false
  | _, _ => false

end Verif.Render.Draw
