import Verif.Render.StackSpec
import Verif.Render.DrawShapes
import Verif.Gds.ImportProps
/-
C102: stacks of layers and lists of meshes are drawn as they are described.
-/
set_option linter.unusedVariables false
set_option linter.unusedSectionVars false
set_option linter.unusedSimpArgs false
namespace Verif.Render.Stack

open Verif.Render Verif.Render.Draw Verif.Render.Polygon Set MeasureTheory

variable {M : Type}

/-! ### Vertices -/

/-- **C102.** The vertices of the polygons are moved by at most half a nanometre, and not at all if they are at whole
nanometres. -/
theorem vertex_moved (x : ℝ) : |(around x : ℝ) - x| ≤ 1 / 2 ∧ ∀ i : ℤ, around i = i := by
  have h1 := Int.floor_le x
  have h2 := Int.lt_floor_add_one x
  constructor
  · unfold around
    rw [abs_le]
    split_ifs with a b c <;> push_cast <;> constructor <;> linarith
  · intro i
    simp [around]

/-- Among two numbers that are equally near it is the even one. -/
theorem vertex_tie (i : ℤ) : around (i + 1 / 2) = if i % 2 = 0 then i else i + 1 := by
  have h : ⌊(i : ℝ) + 1 / 2⌋ = i := by
    rw [Int.floor_eq_iff]
    constructor <;> linarith
  simp only [around, h]
  norm_num

/-! ### The shapes -/

theorem mem_layer (gds : Layers) (layer : Nat × Nat) (p : List (ℝ × ℝ)) :
    p ∈ layerPolygons gds layer ↔ ∃ e ∈ gds.sets, e.key = layer ∧ p ∈ e.polygons := by
  unfold layerPolygons
  rw [Gds.layer_polygons]
  simp [and_assoc]

theorem inNm_length (p : List (ℝ × ℝ)) : (inNm p).length = p.length := by simp [inNm]

/-- The rectangle of a slab. -/
noncomputable def slabRect (g : Grid3 ℝ) : List (ℝ × ℝ) :=
  let w (a : Fin 3) : ℝ := 2 * |at' (g.exyz a) ((g.exyz a).length - 1) - at' (g.exyz a) 0| / 2
  corners (center g (planar g.ext).1 - w (planar g.ext).1) (center g (planar g.ext).1 + w (planar g.ext).1)
    (center g (planar g.ext).2 - w (planar g.ext).2) (center g (planar g.ext).2 + w (planar g.ext).2)

theorem planar_ne (x : Fin 3) : (planar x).1 ≠ x ∧ (planar x).2 ≠ x := by
  revert x
  decide

theorem drawSlab_eq (g : Grid3 ℝ) (list : Shapes) (lo hi : ℝ) (eps : Fin 3 → ℂ) :
    drawSlab g list g.ext ((lo + hi) / 2) (hi - lo) eps =
      if lo < hi then .ok (list ++ [⟨slabRect g, lo, hi, eps⟩]) else .error .gridError := by
  unfold drawSlab
  rw [drawCuboid_eq]
  simp only [ne_eq, planar_ne g.ext, not_false_eq_true, if_true, not_true_eq_false, if_false]
  by_cases h : lo < hi
  · rw [if_neg (by linarith), if_pos h, show (lo + hi) / 2 - (hi - lo) / 2 = lo by ring,
      show (lo + hi) / 2 + (hi - lo) / 2 = hi by ring]
    rfl
  · rw [if_pos (by linarith), if_neg h]

/-- The shapes of the polygons of a layer. -/
noncomputable def polyShapes (ps : List (List (ℝ × ℝ))) (lo hi : ℝ) (eps : ℂ) : Shapes :=
  ps.map fun p => ⟨inNm p, lo, hi, fun _ => eps⟩

theorem drawPolygon_eq (g : Grid3 ℝ) (list : Shapes) (lo hi : ℝ) (eps : ℂ) (p : List (ℝ × ℝ)) :
    drawPolygon3 g list (fun a => if a = g.ext then (lo + hi) / 2 else 0) (inNm p) (hi - lo) (fun _ => eps) =
      if 3 ≤ p.length ∧ lo < hi then .ok (list ++ [⟨inNm p, lo, hi, fun _ => eps⟩]) else .error .gridError := by
  have hl := inNm_length p
  have hid : (inNm p).map (fun q => (q.1 + 0, q.2 + 0)) = inNm p := by simp
  unfold drawPolygon3 drawPolygon
  simp only [planar_ne g.ext, if_false, if_true, hid, hl]
  by_cases h1 : p.length ≤ 2
  · simp [h1, show ¬ 3 ≤ p.length by omega]
  · by_cases h2 : lo < hi
    · simp only [if_neg h1, if_neg (show ¬ hi - lo ≤ 0 by linarith), if_pos (show 3 ≤ p.length ∧ lo < hi from ⟨by omega, h2⟩)]
      rw [show (lo + hi) / 2 - 1 / 2 * (hi - lo) = lo by ring, show (lo + hi) / 2 + 1 / 2 * (hi - lo) = hi by ring]
    · simp only [if_neg h1, if_pos (show hi - lo ≤ 0 by linarith), if_neg (show ¬ (3 ≤ p.length ∧ lo < hi) from fun h => h2 h.2)]

theorem drawPolygons_ok (g : Grid3 ℝ) (lo hi : ℝ) (eps : ℂ) (ps : List (List (ℝ × ℝ))) (list l' : Shapes) :
    drawPolygons g (fun a => if a = g.ext then (lo + hi) / 2 else 0) (hi - lo) eps ps list = .ok l' ↔
      (∀ p ∈ ps, 3 ≤ p.length ∧ lo < hi) ∧ l' = list ++ polyShapes ps lo hi eps := by
  induction ps generalizing list with
  | nil => simp [drawPolygons, polyShapes, eq_comm]
  | cons p ps ih =>
    unfold drawPolygons
    rw [drawPolygon_eq]
    by_cases h : 3 ≤ p.length ∧ lo < hi
    · simp only [if_pos h, lift]
      rw [ih]
      simp [polyShapes, h]
    · simp only [if_neg h, lift, reduceCtorEq, false_iff, not_and]
      intro h2
      exact absurd (h2 p List.mem_cons_self) h

theorem layer_drawable (gds : Layers) (layer : Nat × Nat) (lo hi : ℝ) :
    (∀ p ∈ layerPolygons gds layer, 3 ≤ p.length ∧ lo < hi) ↔
      (HasPolygons gds layer → lo < hi) ∧ Polygonal gds layer := by
  constructor
  · intro h
    refine ⟨fun ⟨e, he, hk, hp⟩ => ?_, fun e he hk p hp => (h p ((mem_layer gds layer p).2 ⟨e, he, hk, hp⟩)).1⟩
    obtain ⟨p, hp⟩ := List.exists_mem_of_ne_nil _ hp
    exact (h p ((mem_layer gds layer p).2 ⟨e, he, hk, hp⟩)).2
  · intro h p hp
    obtain ⟨e, he, hk, hm⟩ := (mem_layer gds layer p).1 hp
    exact ⟨h.2 e he hk p hm, h.1 ⟨e, he, hk, List.ne_nil_of_mem hm⟩⟩

/-- The permittivity of a material. -/
noncomputable def epsOf (index : M → Option ℂ) (m : M) : ℂ := ((index m).getD 0) ^ 2

/-- The shapes of a mesh. -/
noncomputable def shapesOf (index : M → Option ℂ) (gds : Layers) (g : Grid3 ℝ) : Mesh M → Shapes
  | .slab m lo hi => [⟨slabRect g, lo, hi, fun _ => epsOf index m⟩]
  | .gdsMesh m layer lo hi => polyShapes (layerPolygons gds layer) lo hi (epsOf index m)
  | .other _ => []

theorem drawMesh_ok (index : M → Option ℂ) (gds : Layers) (g : Grid3 ℝ) (m : Mesh M) (list l' : Shapes) :
    drawMesh index gds g m list = .ok l' ↔ Drawable index gds m ∧ l' = list ++ shapesOf index gds g m := by
  cases m with
  | slab m lo hi =>
    cases h : index m with
    | none => simp [drawMesh, Drawable, h]
    | some n =>
      simp only [drawMesh, h, drawSlab_eq, Drawable, shapesOf, epsOf]
      by_cases hl : lo < hi
      · simp [hl, lift, eq_comm]
      · simp [hl, lift]
  | gdsMesh m layer lo hi =>
    cases h : index m with
    | none => simp [drawMesh, Drawable, h]
    | some n =>
      simp only [drawMesh, h, Drawable, shapesOf, epsOf, drawPolygons_ok, layer_drawable]
      simp
  | other m => cases h : index m <;> simp [drawMesh, Drawable, h]

theorem drawMeshes_ok (index : M → Option ℂ) (gds : Layers) (g : Grid3 ℝ) (ms : List (Mesh M)) (list l' : Shapes) :
    drawMeshes index gds g ms list = .ok l' ↔
      (∀ m ∈ ms, Drawable index gds m) ∧ l' = list ++ ms.flatMap (shapesOf index gds g) := by
  induction ms generalizing list with
  | nil => simp [drawMeshes, eq_comm]
  | cons m ms ih =>
    unfold drawMeshes
    have hm := drawMesh_ok index gds g m list
    cases hd : drawMesh index gds g m list with
    | error e =>
      simp only [reduceCtorEq, false_iff, not_and]
      intro h
      have := (hm _).2 ⟨h m List.mem_cons_self, rfl⟩
      rw [hd] at this
      cases this
    | ok l1 =>
      obtain ⟨h1, rfl⟩ := (hm l1).1 hd
      simp only [ih]
      simp [h1]

/-- The meshes of a layer of a stack. -/
def layerMeshes (s : StackLayer M) : List (Mesh M) :=
  [.slab s.background s.lo s.hi, .gdsMesh s.foreground s.gdsLayer s.lo s.hi]

theorem drawLayer_ok (index : M → Option ℂ) (gds : Layers) (g : Grid3 ℝ) (s : StackLayer M) (list l' : Shapes) :
    drawLayer index gds g s list = .ok l' ↔ ((index s.background).isSome ∧ (index s.foreground).isSome ∧ s.lo < s.hi ∧
      Polygonal gds s.gdsLayer) ∧ l' = list ++ (layerMeshes s).flatMap (shapesOf index gds g) := by
  unfold drawLayer
  cases hb : index s.background with
  | none => simp
  | some b =>
    cases hf : index s.foreground with
    | none => simp
    | some f =>
      simp only [drawSlab_eq]
      by_cases h : s.lo < s.hi
      · simp only [if_pos h, lift]
        rw [drawPolygons_ok, layer_drawable]
        simp [h, layerMeshes, shapesOf, epsOf, hb, hf]
      · simp [h, lift]

theorem drawGds_ok (index : M → Option ℂ) (gds : Layers) (g : Grid3 ℝ) (stack : List (StackLayer M)) (list l' : Shapes) :
    drawGds index gds g stack list = .ok l' ↔
      (∀ s ∈ stack, (index s.background).isSome ∧ (index s.foreground).isSome ∧ s.lo < s.hi ∧ Polygonal gds s.gdsLayer) ∧
        l' = list ++ (stack.flatMap layerMeshes).flatMap (shapesOf index gds g) := by
  induction stack generalizing list with
  | nil =>
    simp only [drawGds, List.flatMap_nil, List.append_nil, Except.ok.injEq, List.not_mem_nil, false_imp_iff, implies_true,
      true_and]
    exact eq_comm
  | cons s ss ih =>
    unfold drawGds
    have hm := drawLayer_ok index gds g s list
    cases hd : drawLayer index gds g s list with
    | error e =>
      simp only [reduceCtorEq, false_iff, not_and]
      intro h
      have := (hm _).2 ⟨h s List.mem_cons_self, rfl⟩
      rw [hd] at this
      cases this
    | ok l1 =>
      obtain ⟨h1, rfl⟩ := (hm l1).1 hd
      simp only [ih]
      simp [h1]

/-- The meshes of a description. -/
def meshesOf : EpsSpec M → List (Mesh M)
  | .gds _ stack => stack.flatMap layerMeshes
  | .gdsMesh _ ms => ms
  | .other => []

/-- The background of a description. -/
def backgroundOf (index : M → Option ℂ) : EpsSpec M → Option ℂ
  | .gds b _ => index b
  | .gdsMesh b _ => index b
  | .other => none

theorem createGrid_ok (index : M → Option ℂ) (gds : Layers) (edges : Fin 3 → List ℝ) (ext : Int) (spec : EpsSpec M)
    (g : Grid3 ℝ) (b : ℂ) (l : Shapes) :
    createGrid index gds edges ext spec = .ok (g, b, l) ↔ Describes index gds spec ∧ mkGrid edges (.inl false) ext = .ok g ∧
      (∃ n, backgroundOf index spec = some n ∧ b = n ^ 2) ∧ l = (meshesOf spec).flatMap (shapesOf index gds g) := by
  cases spec with
  | gds m stack =>
    simp only [createGrid, Describes, meshesOf, backgroundOf]
    cases hb : index m with
    | none => simp
    | some n =>
      cases hg : mkGrid edges (.inl false) ext with
      | error e => simp [lift]
      | ok g0 =>
        simp only [lift]
        have h := drawGds_ok index gds g0 stack []
        cases hd : drawGds index gds g0 stack [] with
        | error e =>
          simp only [reduceCtorEq, false_iff, not_and]
          intro ⟨_, hs⟩
          have := (h _).2 ⟨hs, rfl⟩
          rw [hd] at this
          cases this
        | ok l1 =>
          obtain ⟨h1, rfl⟩ := (h l1).1 hd
          simp only [Except.ok.injEq, Prod.mk.injEq, List.nil_append, Option.some.injEq, Option.isSome_some, true_and]
          constructor
          · rintro ⟨rfl, rfl, rfl⟩
            exact ⟨h1, rfl, ⟨n, rfl, rfl⟩, rfl⟩
          · rintro ⟨_, rfl, ⟨k, rfl, rfl⟩, rfl⟩
            exact ⟨rfl, rfl, rfl⟩
  | gdsMesh m ms =>
    simp only [createGrid, Describes, meshesOf, backgroundOf]
    cases hb : index m with
    | none => simp
    | some n =>
      cases hg : mkGrid edges (.inl false) ext with
      | error e => simp [lift]
      | ok g0 =>
        simp only [lift]
        have h := drawMeshes_ok index gds g0 ms []
        cases hd : drawMeshes index gds g0 ms [] with
        | error e =>
          simp only [reduceCtorEq, false_iff, not_and]
          intro ⟨_, hs⟩
          have := (h _).2 ⟨hs, rfl⟩
          rw [hd] at this
          cases this
        | ok l1 =>
          obtain ⟨h1, rfl⟩ := (h l1).1 hd
          simp only [Except.ok.injEq, Prod.mk.injEq, List.nil_append, Option.some.injEq, Option.isSome_some, true_and]
          constructor
          · rintro ⟨rfl, rfl, rfl⟩
            exact ⟨h1, rfl, ⟨n, rfl, rfl⟩, rfl⟩
          · rintro ⟨_, rfl, ⟨k, rfl, rfl⟩, rfl⟩
            exact ⟨rfl, rfl, rfl⟩
  | other => simp [createGrid, Describes]

theorem mkGrid_inl (edges : Fin 3 → List ℝ) (ext : Int) : (∃ g, mkGrid edges (.inl false) ext = .ok g) ↔ 0 ≤ ext ∧ ext ≤ 2 := by
  have h := (grid_created edges (.inl false) ext).1
  constructor
  · rintro ⟨g, hg⟩
    by_contra hc
    rw [h.2 hc] at hg
    cases hg
  · intro hc
    cases hg : mkGrid edges (.inl false) ext with
    | ok g => exact ⟨g, rfl⟩
    | error e =>
      cases e
      all_goals first | exact absurd hc (h.1 hg) | (exfalso; revert hg; unfold mkGrid; simp only []; split_ifs <;> simp)

/-- **C102.** When a description can be drawn: all materials are known, the layers and slabs have a thickness (their
extents are in increasing order), so have the meshes with polygons, and polygons have three vertices. -/
theorem described_when (index : M → Option ℂ) (gds : Layers) (edges : Fin 3 → List ℝ) (ext : Int) (spec : EpsSpec M) :
    (∃ r, createGrid index gds edges ext spec = .ok r) ↔ (0 ≤ ext ∧ ext ≤ 2) ∧ Describes index gds spec := by
  constructor
  · rintro ⟨⟨g, b, l⟩, h⟩
    obtain ⟨h1, h2, _⟩ := (createGrid_ok index gds edges ext spec g b l).1 h
    exact ⟨(mkGrid_inl edges ext).1 ⟨g, h2⟩, h1⟩
  · rintro ⟨h1, h2⟩
    obtain ⟨g, hg⟩ := (mkGrid_inl edges ext).2 h1
    have : ∃ n, backgroundOf index spec = some n := by
      cases spec with
      | gds b s => exact Option.isSome_iff_exists.1 h2.1
      | gdsMesh b s => exact Option.isSome_iff_exists.1 h2.1
      | other => exact absurd h2 id
    obtain ⟨n, hn⟩ := this
    exact ⟨_, (createGrid_ok index gds edges ext spec g (n ^ 2) _).2 ⟨h2, hg, ⟨n, hn, rfl⟩, rfl⟩⟩

/-! ### The material at a point -/

theorem grid_facts {edges : Fin 3 → List ℝ} {ext : Int} {g : Grid3 ℝ} (hg : mkGrid edges (.inl false) ext = .ok g)
    (he : ∀ a, ∃ x ∈ edges a, ∃ y ∈ edges a, x ≠ y) : YeeGrid g ∧ ∀ a, g.periodic a = false := by
  have := (grid_created edges (.inl false) ext).2 g hg
  exact ⟨this.2.2.2 he, this.2.2.1 false rfl⟩

theorem slab_bounds {g : Grid3 ℝ} (hg : YeeGrid g) (a : Fin 3) :
    let w := 2 * |at' (g.exyz a) ((g.exyz a).length - 1) - at' (g.exyz a) 0| / 2
    center g a - w < center g a + w ∧
    center g a - w ≤ at' (g.exyz a) 0 - (at' (g.exyz a) ((g.exyz a).length - 1) - at' (g.exyz a) ((g.exyz a).length - 2)) / 2 ∧
    at' (g.exyz a) ((g.exyz a).length - 1) ≤ center g a + w := by
  intro w
  have h2 := hg.two a
  have e0 : 0 < at' (g.exyz a) ((g.exyz a).length - 1) - at' (g.exyz a) 0 := sub_pos.2 (edge_lt hg a (by omega) (by omega))
  have hw : w = at' (g.exyz a) ((g.exyz a).length - 1) - at' (g.exyz a) 0 := by
    show 2 * |_| / 2 = _
    rw [abs_of_pos e0]
    ring
  rw [hw]
  have e3 : at' (g.exyz a) 1 ≤ at' (g.exyz a) ((g.exyz a).length - 1) := edge_le hg a (by omega) (by omega)
  have e4 : at' (g.exyz a) 0 ≤ at' (g.exyz a) ((g.exyz a).length - 2) := edge_le hg a (by omega) (by omega)
  have e1 : at' (g.exyz a) 0 < at' (g.exyz a) 1 := edge_lt hg a (by omega) (by omega)
  have e2 : at' (g.exyz a) ((g.exyz a).length - 2) < at' (g.exyz a) ((g.exyz a).length - 1) :=
    edge_lt hg a (by omega) (by omega)
  simp only [Draw.center]
  refine ⟨by linarith, by linarith, by linarith⟩

theorem slab_contains {g : Grid3 ℝ} (hg : YeeGrid g) {x : ℝ × ℝ} (hx : InGrid g x) : insideOf (slabRect g) x = true := by
  have b1 := slab_bounds hg (planar g.ext).1
  have b2 := slab_bounds hg (planar g.ext).2
  have h1 := hx (planar g.ext).1 x.1 (Or.inl ⟨by rw [planar_eq], rfl⟩)
  have h2 := hx (planar g.ext).2 x.2 (Or.inr ⟨by rw [planar_eq], rfl⟩)
  change insideOf (Rect.outline ⟨_, _, _, _, b1.1, b2.1⟩) x = true
  rw [Rect.inside]
  exact ⟨b1.2.1.trans_lt h1.1, h1.2.trans b1.2.2, b2.2.1.trans_lt h2.1, h2.2.trans b2.2.2⟩

theorem mesh_covers (index : M → Option ℂ) (gds : Layers) {g : Grid3 ℝ} (hg : YeeGrid g) {x : ℝ × ℝ} (hx : InGrid g x)
    (z : ℝ) (m : Mesh M) :
    (InMesh gds x z m → ∃ s, ((shapesOf index gds g m).filter (covers (fun r x => insideOf r x) x z)).getLast? = some s ∧
      s.eps = fun _ => epsOf index (material m)) ∧
    (¬ InMesh gds x z m → (shapesOf index gds g m).filter (covers (fun r x => insideOf r x) x z) = []) := by
  cases m with
  | slab m lo hi =>
    constructor
    · intro h
      have : covers (fun r x => insideOf r x) x z
          (⟨slabRect g, lo, hi, fun _ => epsOf index m⟩ : Drawn ℝ (List (ℝ × ℝ)) (Fin 3 → ℂ)) = true := by
        simp [covers, slab_contains hg hx, h.1, h.2]
      exact ⟨_, by simp [shapesOf, this]; rfl, rfl⟩
    · intro h
      have : covers (fun r x => insideOf r x) x z
          (⟨slabRect g, lo, hi, fun _ => epsOf index m⟩ : Drawn ℝ (List (ℝ × ℝ)) (Fin 3 → ℂ)) = false := by
        by_contra hc
        simp only [covers, Bool.not_eq_false, Bool.and_eq_true, decide_eq_true_eq] at hc
        exact h ⟨hc.1.2, hc.2⟩
      simp [shapesOf, this]
  | gdsMesh m layer lo hi =>
    constructor
    · rintro ⟨h1, h2, e, he, hk, p, hp, hin⟩
      have hm : (⟨inNm p, lo, hi, fun _ => epsOf index m⟩ : Drawn ℝ (List (ℝ × ℝ)) (Fin 3 → ℂ)) ∈
          (shapesOf index gds g (.gdsMesh m layer lo hi)).filter (covers (fun r x => insideOf r x) x z) := by
        refine List.mem_filter.2 ⟨List.mem_map.2 ⟨p, (mem_layer gds layer p).2 ⟨e, he, hk, hp⟩, rfl⟩, ?_⟩
        simp [covers, hin, h1, h2]
      have hne := List.ne_nil_of_mem hm
      refine ⟨_, List.getLast?_eq_some_getLast hne, ?_⟩
      have := List.mem_filter.1 (List.getLast_mem hne)
      obtain ⟨q, _, hq⟩ := List.mem_map.1 this.1
      rw [← hq]
      rfl
    · intro h
      rw [List.filter_eq_nil_iff]
      intro s hs hc
      obtain ⟨p, hp, rfl⟩ := List.mem_map.1 hs
      simp only [covers, Bool.and_eq_true, decide_eq_true_eq] at hc
      obtain ⟨e, he, hk, hpe⟩ := (mem_layer gds layer p).1 hp
      exact h ⟨hc.1.2, hc.2, e, he, hk, p, hpe, hc.1.1⟩
  | other m => exact ⟨fun h => absurd h id, fun _ => rfl⟩

open Classical in
theorem meshes_material (index : M → Option ℂ) (gds : Layers) {g : Grid3 ℝ} (hg : YeeGrid g) {x : ℝ × ℝ} (hx : InGrid g x)
    (z : ℝ) (b : M) (ms : List (Mesh M)) :
    materialAt (fun r x => insideOf r x) (fun _ => epsOf index b) (ms.flatMap (shapesOf index gds g)) x z =
      fun _ => epsOf index (meshesAt gds b ms x z) := by
  induction ms using List.reverseRecOn with
  | nil => rfl
  | append_singleton ms m ih =>
    have hm := mesh_covers index gds hg hx z m
    unfold materialAt meshesAt at ih ⊢
    rw [List.flatMap_append, List.filter_append, List.getLast?_append, List.filter_append, List.getLast?_append]
    by_cases h : InMesh gds x z m
    · obtain ⟨s, hs, he⟩ := hm.1 h
      simp only [List.flatMap_cons, List.flatMap_nil, List.append_nil, hs]
      simp [h, he]
    · simp only [List.flatMap_cons, List.flatMap_nil, List.append_nil, hm.2 h]
      simpa [h] using ih

open Classical in
/-- A stack is the list of its slabs and polygons. -/
theorem stack_meshes (gds : Layers) (b : M) (stack : List (StackLayer M)) (x : ℝ × ℝ) (z : ℝ) :
    meshesAt gds b (stack.flatMap layerMeshes) x z = stackAt gds b stack x z := by
  induction stack using List.reverseRecOn with
  | nil => rfl
  | append_singleton ss s ih =>
    unfold meshesAt stackAt at ih ⊢
    rw [List.flatMap_append, List.filter_append, List.getLast?_append, List.filter_append, List.getLast?_append]
    simp only [List.flatMap_cons, List.flatMap_nil, List.append_nil, layerMeshes]
    by_cases h : s.lo < z ∧ z < s.hi
    · by_cases hi : InLayer gds s.gdsLayer x
      · simp [h, hi, InMesh, material]
      · simp [h, hi, InMesh, material]
    · have h1 : ¬ InMesh gds x z (.slab s.background s.lo s.hi) := h
      have h2 : ¬ InMesh gds x z (.gdsMesh s.foreground s.gdsLayer s.lo s.hi) := fun k => h ⟨k.1, k.2.1⟩
      simpa [h1, h2, h] using ih

theorem described_of_meshes (index : M → Option ℂ) (gds : Layers) (spec : EpsSpec M) (m : M)
    (hm : (∃ s, spec = .gds m s) ∨ ∃ s, spec = .gdsMesh m s) (x : ℝ × ℝ) (z : ℝ) :
    epsOf index (meshesAt gds m (meshesOf spec) x z) = describedAt index gds spec x z := by
  rcases hm with ⟨s, rfl⟩ | ⟨s, rfl⟩
  · rw [meshesOf, stack_meshes]; rfl
  · rfl

theorem spec_background {index : M → Option ℂ} {spec : EpsSpec M} {n : ℂ} (h : backgroundOf index spec = some n) :
    ∃ m, ((∃ s, spec = .gds m s) ∨ ∃ s, spec = .gdsMesh m s) ∧ index m = some n := by
  cases spec with
  | gds m s => exact ⟨m, Or.inl ⟨s, rfl⟩, h⟩
  | gdsMesh m s => exact ⟨m, Or.inr ⟨s, rfl⟩, h⟩
  | other => cases h

/-- **C102.** The shapes that are drawn give each point of the grid the permittivity that is described: in a stack the last
layer at that height counts, with its foreground inside of the polygons of its layer in the file and with its background
outside of them; in a list of meshes the last one that contains the point counts; and elsewhere it is the background. -/
theorem described_drawn (index : M → Option ℂ) (gds : Layers) (edges : Fin 3 → List ℝ)
    (he : ∀ a, ∃ x ∈ edges a, ∃ y ∈ edges a, x ≠ y) (ext : Int) (spec : EpsSpec M) (g : Grid3 ℝ) (b : ℂ) (l : Shapes)
    (h : createGrid index gds edges ext spec = .ok (g, b, l)) (x : ℝ × ℝ) (hx : InGrid g x) (z : ℝ) :
    materialAt (fun r x => insideOf r x) (fun _ => b) l x z = fun _ => describedAt index gds spec x z := by
  obtain ⟨h1, hg, ⟨n, hn, rfl⟩, rfl⟩ := (createGrid_ok index gds edges ext spec g b l).1 h
  obtain ⟨m, hm, hi⟩ := spec_background hn
  have := meshes_material index gds (grid_facts hg he).1 hx z m (meshesOf spec)
  simp only [described_of_meshes index gds spec m hm] at this
  rw [← this]
  simp [epsOf, hi]

theorem getLast_filter_mem {α : Type} (p : α → Bool) (l : List α) (s : α) (h : (l.filter p).getLast? = some s) : s ∈ l :=
  List.mem_of_mem_filter (List.mem_of_getLast? h)

/-- **C102.** The index of the material at each point is known when the drawing has succeeded, so that no material counts
as the number 0. -/
theorem described_known (index : M → Option ℂ) (gds : Layers) (x : ℝ × ℝ) (z : ℝ) :
    (∀ b stack, Describes index gds (.gds b stack) → (index (stackAt gds b stack x z)).isSome) ∧
    ∀ b meshes, Describes index gds (.gdsMesh b meshes) → (index (meshesAt gds b meshes x z)).isSome := by
  constructor
  · rintro b stack ⟨hb, hs⟩
    unfold stackAt
    split
    · exact hb
    · rename_i s h
      have := hs s (getLast_filter_mem _ _ _ h)
      split_ifs
      · exact this.2.1
      · exact this.1
  · rintro b ms ⟨hb, hs⟩
    unfold meshesAt
    split
    · exact hb
    · rename_i m h
      have := hs m (getLast_filter_mem _ _ _ h)
      cases m with
      | slab m lo hi => exact this.1
      | gdsMesh m layer lo hi => exact this.1
      | other m => exact absurd this id

/-! ### The permittivities on the grid -/

theorem cell_inGrid {g : Grid3 ℝ} (hg : YeeGrid g) (hp : ∀ a, g.periodic a = false) (n : Fin 3) (c : Fin 3 → Nat)
    (hc : OnGrid g c) (q : (ℝ × ℝ) × ℝ) (hq : q ∈ cell g n c) : InGrid g q.1 := by
  obtain ⟨⟨h1, h2⟩, _⟩ := hq
  intro a y hy
  have hb : before g a = (g.exyz a).getD ((g.exyz a).length - 1) 0 - (g.exyz a).getD ((g.exyz a).length - 2) 0 := by
    simp [before, hp a]
  have hl := (side_lower hg n c hc a).1
  have hu := side_upper hg n c hc a
  rw [hb] at hl
  rcases hy with ⟨rfl, rfl⟩ | ⟨rfl, rfl⟩
  · exact ⟨hl.trans_lt h1.1, h1.2.trans hu⟩
  · exact ⟨hl.trans_lt h2.1, h2.2.trans hu⟩

/-- The regions of a kind of polygons for which the drawing can be done: those of the polygons of the file that the
description uses, and rectangles. -/
def Includes {R : Type} (outline : R → List (ℝ × ℝ)) (gds : Layers) : Prop :=
  (∀ e ∈ gds.sets, ∀ p ∈ e.polygons, ∃ r, outline r = inNm p) ∧
    ∀ x0 x1 y0 y1, x0 < x1 → y0 < y1 → ∃ r, outline r = corners x0 x1 y0 y1

theorem shapes_lifted {R : Type} (outline : R → List (ℝ × ℝ)) (index : M → Option ℂ) (gds : Layers)
    (hR : Includes outline gds) {g : Grid3 ℝ} (hg : YeeGrid g) (ms : List (Mesh M)) :
    ∃ l' : List (Drawn ℝ R (Fin 3 → ℂ)), l'.map (fun s => ⟨outline s.region, s.z0, s.z1, s.eps⟩) =
      ms.flatMap (shapesOf index gds g) := by
  have key : ∀ l : Shapes, (∀ s ∈ l, ∃ r, outline r = s.region) →
      ∃ l' : List (Drawn ℝ R (Fin 3 → ℂ)), l'.map (fun s => ⟨outline s.region, s.z0, s.z1, s.eps⟩) = l := by
    intro l
    induction l with
    | nil => exact fun _ => ⟨[], rfl⟩
    | cons s l ih =>
      intro h
      obtain ⟨l', hl⟩ := ih fun t ht => h t (List.mem_cons_of_mem _ ht)
      obtain ⟨r, hr⟩ := h s List.mem_cons_self
      exact ⟨⟨r, s.z0, s.z1, s.eps⟩ :: l', by simp [hl, hr]⟩
  refine key _ fun s hs => ?_
  obtain ⟨m, _, hs⟩ := List.mem_flatMap.1 hs
  cases m with
  | slab m lo hi =>
    obtain rfl := List.mem_singleton.1 hs
    exact hR.2 _ _ _ _ (slab_bounds hg _).1 (slab_bounds hg _).1
  | gdsMesh m layer lo hi =>
    obtain ⟨p, hp, rfl⟩ := List.mem_map.1 hs
    obtain ⟨e, he, _, hpe⟩ := (mem_layer gds layer p).1 hp
    exact hR.1 e he p hpe
  | other m => cases hs

theorem material_lifted {R : Type} (outline : R → List (ℝ × ℝ)) (bg : Fin 3 → ℂ) (l' : List (Drawn ℝ R (Fin 3 → ℂ)))
    (x : ℝ × ℝ) (z : ℝ) :
    materialAt (fun r x => insideOf (outline r) x) bg l' x z = materialAt (fun r x => insideOf r x) bg
      (l'.map fun s => (⟨outline s.region, s.z0, s.z1, s.eps⟩ : Drawn ℝ (List (ℝ × ℝ)) (Fin 3 → ℂ))) x z := by
  unfold materialAt
  rw [List.filter_map, List.getLast?_map, Option.map_map]
  rfl

theorem shapes_whole (index : M → Option ℂ) (gds : Layers) (g : Grid3 ℝ) (spec : EpsSpec M) (h : Whole spec) :
    ∀ s ∈ (meshesOf spec).flatMap (shapesOf index gds g), (∃ i : ℤ, s.z0 = i) ∧ ∃ i : ℤ, s.z1 = i := by
  intro s hs
  obtain ⟨m, hm, hs⟩ := List.mem_flatMap.1 hs
  have key : ∀ lo hi, Integral lo → Integral hi → (∃ m', m = .slab m' lo hi) ∨ (∃ m' k, m = .gdsMesh m' k lo hi) →
      (∃ i : ℤ, s.z0 = i) ∧ ∃ i : ℤ, s.z1 = i := by
    rintro lo hi h1 h2 (⟨m', rfl⟩ | ⟨m', k, rfl⟩)
    · obtain rfl := List.mem_singleton.1 hs
      exact ⟨h1, h2⟩
    · obtain ⟨p, hp, rfl⟩ := List.mem_map.1 hs
      exact ⟨h1, h2⟩
  cases spec with
  | gds b stack =>
    obtain ⟨t, ht, hm⟩ := List.mem_flatMap.1 hm
    have := h t ht
    simp only [layerMeshes, List.mem_cons, List.not_mem_nil, or_false] at hm
    rcases hm with hm | hm
    · exact key t.lo t.hi this.1 this.2 (Or.inl ⟨_, hm⟩)
    · exact key t.lo t.hi this.1 this.2 (Or.inr ⟨_, _, hm⟩)
  | gdsMesh b ms =>
    have := h m hm
    cases m with
    | slab m lo hi => exact key lo hi this.1 this.2 (Or.inl ⟨_, rfl⟩)
    | gdsMesh m k lo hi => exact key lo hi this.1 this.2 (Or.inr ⟨_, _, rfl⟩)
    | other m => cases hs
  | other => cases hm

/-- **C102.** The permittivity of each cell of each component is the average over that cell of the permittivity that is
described, if the polygons (moved to whole nanometres) are proper and their differences are computed rightly (C87), and
if the extents are whole nanometres or the cells at least two nanometres high. Missing: extents that are not whole with
thinner cells, see C87. -/
theorem described_rendered_partial {R : Type} (outline : R → List (ℝ × ℝ)) (ho : ∀ r, Proper (outline r))
    (diff : R → R → List R) (hd : ∀ᵐ x : ℝ × ℝ, DiffRight outline diff x)
    (index : M → Option ℂ) (gds : Layers) (hR : Includes outline gds) (edges : Fin 3 → List ℝ)
    (he : ∀ a, ∃ x ∈ edges a, ∃ y ∈ edges a, x ≠ y) (ext : Int) (spec : EpsSpec M) (g : Grid3 ℝ) (b : ℂ) (l : Shapes)
    (h : createGrid index gds edges ext spec = .ok (g, b, l))
    (hh : Whole spec ∨ ∀ i, i + 1 < (g.exyz g.ext).length → 2 ≤ (g.exyz g.ext).getD (i + 1) 0 - (g.exyz g.ext).getD i 0) :
    ∃ l' : List (Drawn ℝ R (Fin 3 → ℂ)), l'.map (fun s => ⟨outline s.region, s.z0, s.z1, s.eps⟩) = l ∧
      ∀ n, ∃ v, render3 g (polygons outline diff) outline (fun _ => b) n false l' = .ok v ∧
        ∀ c, OnGrid g c → v c = ⨍ q in cell g n c, describedAt index gds spec q.1 q.2 := by
  obtain ⟨h1, hg, ⟨k, hk, rfl⟩, rfl⟩ := (createGrid_ok index gds edges ext spec g b l).1 h
  obtain ⟨hy, hp⟩ := grid_facts hg he
  obtain ⟨l', hl⟩ := shapes_lifted outline index gds hR hy (meshesOf spec)
  refine ⟨l', hl, fun n => ?_⟩
  have hharm : HeightsHarmless g l' := by
    rcases hh with hh | hh
    · left
      intro s hs
      exact shapes_whole index gds g spec hh _ (hl ▸ List.mem_map_of_mem hs)
    · exact Or.inr hh
  obtain ⟨v, hv, hc⟩ := render_average_partial hy outline ho diff hd (fun _ => k ^ 2) n l' hharm
  refine ⟨v, hv, fun c hcg => ?_⟩
  rw [hc c hcg]
  have hms : MeasurableSet (cell g n c) := (measurableSet_Ioc.prod measurableSet_Ioc).prod measurableSet_Ioc
  refine setAverage_congr_fun hms (Filter.Eventually.of_forall fun q hq => ?_)
  rw [material_lifted, hl, described_drawn index gds edges he ext spec g _ _ h q.1 (cell_inGrid hy hp n c hcg q hq) q.2]

/-! ### A case, and cases in which the description is not what a user meant -/

/-- A bar of 10.4 nm width. -/
noncomputable def barFile : Layers := ⟨0, false, [⟨(1, 0), [[(0, 1), (0.0104, 1), (0.0104, 0), (0, 0)]]⟩]⟩

/-- A silicon bar in glass on a silicon substrate, below air. -/
def barStack : EpsSpec Nat :=
  .gds 0 [⟨(7, 7), -1000, 0, 1, 2⟩, ⟨(1, 0), 0, 220, 1, 2⟩]

/-- Its indices. -/
noncomputable def barIndex : Nat → Option ℂ
  | 0 => some 1
  | 1 => some (7 / 2)
  | 2 => some (3 / 2)
  | _ => none

theorem around_of (x : ℝ) (i : ℤ) (h1 : (i : ℝ) - 1 / 2 < x) (h2 : x < i + 1 / 2) : around x = i := by
  unfold around
  rcases lt_or_ge x i with h | h
  · have hf : ⌊x⌋ = i - 1 := by
      rw [Int.floor_eq_iff]
      push_cast
      constructor <;> linarith
    rw [hf]
    push_cast
    rw [if_neg (by linarith), if_pos (by linarith)]
    ring
  · have hf : ⌊x⌋ = i := by
      rw [Int.floor_eq_iff]
      constructor <;> linarith
    rw [hf, if_pos (by linarith)]

theorem bar_nm : inNm [(0, 1), (0.0104, 1), (0.0104, 0), (0, 0)] = corners 0 10 0 1000 := by
  have a : around ((0 : ℝ) * 1000) = 0 := around_of _ _ (by norm_num) (by norm_num)
  have b : around ((1 : ℝ) * 1000) = 1000 := around_of _ _ (by norm_num) (by norm_num)
  have c : around ((0.0104 : ℝ) * 1000) = 10 := around_of _ _ (by norm_num) (by norm_num)
  simp only [inNm, List.map_cons, List.map_nil, a, b, c, corners]
  norm_num

theorem bar_layer (x : ℝ × ℝ) : InLayer barFile (1, 0) x ↔ 0 < x.1 ∧ x.1 ≤ 10 ∧ 0 < x.2 ∧ x.2 ≤ 1000 := by
  have h : insideOf (corners 0 10 0 1000) x = true ↔ _ := Rect.inside ⟨0, 10, 0, 1000, by norm_num, by norm_num⟩ x
  rw [← h, InLayer]
  simp [barFile, bar_nm]

theorem bar_missing (x : ℝ × ℝ) : ¬ InLayer barFile (7, 7) x := by
  simp [InLayer, barFile]

/-- The theorem applies to the bar on a grid with cells of different sizes. -/
example : ∃ edges : Fin 3 → List ℝ, (∀ a, ∃ x ∈ edges a, ∃ y ∈ edges a, x ≠ y) ∧
    (∃ r, createGrid barIndex barFile edges 2 barStack = .ok r) ∧ Whole barStack ∧
    (∀ r, Proper (Rect.outline r)) ∧ (∀ᵐ x : ℝ × ℝ, DiffRight Rect.outline Rect.diff x) ∧ Includes Rect.outline barFile := by
  refine ⟨fun _ => [-40, -10, 5, 30], fun a => ⟨-40, by simp, -10, by simp, by norm_num⟩, ?_, ?_, Rect.proper,
    Filter.Eventually.of_forall Rect.diff_right, ?_, fun x0 x1 y0 y1 h1 h2 => ⟨⟨x0, x1, y0, y1, h1, h2⟩, rfl⟩⟩
  · rw [described_when]
    refine ⟨by norm_num, rfl, ?_⟩
    simp [barIndex, Polygonal, barFile]
  · intro s hs
    simp only [List.mem_cons, List.not_mem_nil, or_false] at hs
    rcases hs with rfl | rfl
    · exact ⟨⟨-1000, by norm_num⟩, ⟨0, by norm_num⟩⟩
    · exact ⟨⟨0, by norm_num⟩, ⟨220, by norm_num⟩⟩
  · intro e he p hp
    simp only [barFile, List.mem_cons, List.not_mem_nil, or_false] at he
    subst he
    simp only [List.mem_cons, List.not_mem_nil, or_false] at hp
    subst hp
    exact ⟨⟨0, 10, 0, 1000, by norm_num, by norm_num⟩, bar_nm.symm⟩

/-- The materials of the bar: silicon inside of it, glass beside it, air above it. -/
theorem bar_materials : stackAt barFile 0 [⟨(7, 7), -1000, 0, 1, 2⟩, ⟨(1, 0), 0, 220, 1, 2⟩] (5, 500) 100 = (1 : Nat) ∧
    stackAt barFile 0 [⟨(7, 7), -1000, 0, 1, 2⟩, ⟨(1, 0), 0, 220, 1, 2⟩] (15, 500) 100 = (2 : Nat) ∧
    stackAt barFile 0 [⟨(7, 7), -1000, 0, 1, 2⟩, ⟨(1, 0), 0, 220, 1, 2⟩] (5, 500) 300 = (0 : Nat) := by
  have h1 : InLayer barFile (1, 0) (5, 500) := (bar_layer _).2 (by norm_num)
  have h2 : ¬ InLayer barFile (1, 0) (15, 500) := fun h => by
    have := (bar_layer _).1 h
    norm_num at this
  refine ⟨?_, ?_, ?_⟩ <;> simp only [stackAt, List.filter] <;> norm_num [h1, h2]

/-- **C102** fails for polygons with vertices between whole nanometres: the bar reaches from 0 to 10.4 nm, but at 10.2 nm
its background is drawn. -/
theorem rounded_polygon_false :
    insideOf (([(0, 1), (0.0104, 1), (0.0104, 0), (0, 0)] : List (ℝ × ℝ)).map fun p => (1000 * p.1, 1000 * p.2)) (10.2, 500)
      = true ∧ describedAt barIndex barFile barStack (10.2, 500) 100 = (3 / 2) ^ 2 := by
  constructor
  · have e : (([(0, 1), (0.0104, 1), (0.0104, 0), (0, 0)] : List (ℝ × ℝ)).map fun p => (1000 * p.1, 1000 * p.2)) =
        corners 0 10.4 0 1000 := by
      simp only [List.map_cons, List.map_nil, corners]
      norm_num
    rw [e]
    exact (Rect.inside ⟨0, 10.4, 0, 1000, by norm_num, by norm_num⟩ _).2 (by norm_num)
  · have h2 : ¬ InLayer barFile (1, 0) (10.2, 500) := fun h => by
      have := (bar_layer _).1 h
      norm_num at this
    have : stackAt barFile 0 [⟨(7, 7), -1000, 0, 1, 2⟩, ⟨(1, 0), 0, 220, 1, 2⟩] (10.2, 500) 100 = (2 : Nat) := by
      simp only [stackAt, List.filter]
      have a : ¬ ((100 : ℝ) < 0) := by norm_num
      have b : (0 : ℝ) < 100 ∧ (100 : ℝ) < 220 := by norm_num
      simp only [a, b, and_false, and_self, decide_false, decide_true, h2, List.getLast?_singleton, if_false]
    simp [describedAt, barStack, this, barIndex]

/-- **C102** fails for a layer that is not in the file: `get_polygons` is documented to raise `ValueError`, but the layer
is drawn without its foreground (here layer 7 of the bar). -/
theorem missing_layer_false : (∀ e ∈ barFile.sets, e.key ≠ (7, 7)) ∧
    (∃ r, createGrid barIndex barFile (fun _ => [0, 1]) 2 barStack = .ok r) ∧
    ∀ x z, -1000 < z → z < 0 → describedAt barIndex barFile barStack x z = (3 / 2) ^ 2 := by
  refine ⟨by simp [barFile], ?_, fun x z h1 h2 => ?_⟩
  · rw [described_when]
    refine ⟨by norm_num, rfl, ?_⟩
    simp [barIndex, Polygonal, barFile]
  · have : stackAt barFile 0 [⟨(7, 7), -1000, 0, 1, 2⟩, ⟨(1, 0), 0, 220, 1, 2⟩] x z = (2 : Nat) := by
      simp only [stackAt, List.filter]
      simp [h1, h2, not_lt.2 h2.le, bar_missing]
    simp [describedAt, barStack, this, barIndex]

end Verif.Render.Stack
