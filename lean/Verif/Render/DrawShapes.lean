import Verif.Render.DrawProps
/-
C87: cuboids, slabs and fillings; the constructor of the grid; and cases in which C87 fails.
-/
set_option linter.unusedVariables false
set_option linter.unusedSectionVars false
namespace Verif.Render.Draw

open Verif.Render Verif.Render.Polygon Set MeasureTheory

/-! ### Rectangles -/

/-- The vertices of a rectangle in the order of `draw_cuboid`. -/
def corners (x0 x1 y0 y1 : ℝ) : List (ℝ × ℝ) := [(x0, y1), (x1, y1), (x1, y0), (x0, y0)]

theorem share_rectangle {x0 x1 y0 y1 : ℝ} (hx : x0 < x1) (hy : y0 < y1) {I J : ℝ × ℝ} (hI : I.1 < I.2) (hJ : J.1 < J.2) :
    share (corners x0 x1 y0 y1) I J = covered x0 x1 I.1 I.2 * covered y0 y1 J.1 J.2 := by
  rw [share, integral_winding hI.le hJ.le, covered_clip hx.le hI.le, covered_clip hy.le hJ.le, div_mul_div_comm]
  congr 1
  have he : edges (corners x0 x1 y0 y1) =
      [((x0, y1), (x1, y1)), ((x1, y1), (x1, y0)), ((x1, y0), (x0, y0)), ((x0, y0), (x0, y1))] := rfl
  rw [he]
  simp only [List.map_cons, List.map_nil, List.sum_cons, List.sum_nil]
  rw [edgeArea_horizontal _ _ _ _ (p := (x0, y1)) (q := (x1, y1)) rfl,
    edgeArea_vertical _ _ _ _ (p := (x1, y1)) (q := (x1, y0)) rfl,
    edgeArea_horizontal _ _ _ _ (p := (x1, y0)) (q := (x0, y0)) rfl,
    edgeArea_vertical _ _ _ _ (p := (x0, y0)) (q := (x0, y1)) rfl]
  simp only
  rw [← abs_of_nonneg (mul_nonneg (sub_nonneg.2 (clip_mono (c := I.1) (d := I.2) hx.le))
    (sub_nonneg.2 (clip_mono (c := J.1) (d := J.2) hy.le)))]
  congr 1
  ring

/-- One polygon between two heights. -/
theorem single_cell {E : Type} [AddCommGroup E] [Module ℝ E] {R : Type} (gd : Polygons R) (raster : R → ℝ) (wz : ℝ → ℝ → ℝ)
    (bg : Fin 3 → E) (n : Fin 3) (p : R) (z0 z1 : ℝ) (hz : z0 < z1) (eps : Fin 3 → E) :
    renderCell gd raster wz bg false [⟨p, z0, z1, eps⟩] n = bg n + (wz z0 z1 * raster p) • (eps n - bg n) := by
  have h1 : layerZ [(⟨p, z0, z1, eps⟩ : Drawn ℝ R (Fin 3 → E))] = [z0, z1] := by
    have : ([z0, z1] : List ℝ).dedup = [z0, z1] := by
      rw [List.dedup_eq_self]
      simp [hz.ne]
    simp only [layerZ, List.flatMap_cons, List.flatMap_nil, List.append_nil, this]
    refine List.Pairwise.insertionSort_eq ?_
    simp [hz.le]
  have h2 : computeLayers [(⟨p, z0, z1, eps⟩ : Drawn ℝ R (Fin 3 → E))] = [[(p, eps)]] := by
    have e0 : searchsorted [z0, z1] z0 = 0 := by simp [searchsorted, hz.le]
    have e1 : searchsorted [z0, z1] z1 = 1 := by simp [searchsorted, hz]
    simp [computeLayers, h1, addToLayers, e0, e1]
  rw [renderCell_apply, h1, h2]
  simp [reduceLayer, at', smul_smul]

/-- The rectangle and the heights that `draw_cuboid` draws. -/
theorem drawCuboid_eq {E : Type} (g : Grid3 ℝ) (list : List (Drawn ℝ (List (ℝ × ℝ)) E)) (ctr extent : Fin 3 → ℝ) (eps : E) :
    drawCuboid g list ctr extent eps = if extent g.ext ≤ 0 then .error .gridError else .ok (list ++
      [⟨corners (ctr (planar g.ext).1 - extent (planar g.ext).1 / 2) (ctr (planar g.ext).1 + extent (planar g.ext).1 / 2)
        (ctr (planar g.ext).2 - extent (planar g.ext).2 / 2) (ctr (planar g.ext).2 + extent (planar g.ext).2 / 2),
        ctr g.ext - extent g.ext / 2, ctr g.ext + extent g.ext / 2, eps⟩]) := by
  simp only [drawCuboid, drawPolygon3, drawPolygon]
  by_cases h : extent g.ext ≤ 0
  · simp [h]
  · simp only [h, if_false, List.length_cons, List.length_nil, List.map_cons, List.map_nil, corners]
    norm_num
    refine ⟨⟨⟨?_, ?_⟩, ⟨?_, ?_⟩, ⟨?_, ?_⟩, ?_, ?_⟩, ?_⟩ <;> ring

theorem prod_axes (x : Fin 3) (f : Fin 3 → ℝ) : f x * (f (planar x).1 * f (planar x).2) = ∏ a, f a := by
  rw [Fin.prod_univ_three]
  fin_cases x <;> simp [planar] <;> ring

/-- **C87.** A cuboid. It is drawn if it has a positive thickness, and then each cell gets the permittivity of the cuboid
in the part of it that the cuboid covers: the product of the covered parts of its sides, whatever the extrusion axis. -/
theorem cuboid_value_partial {E : Type} [AddCommGroup E] [Module ℝ E] {g : Grid3 ℝ} (hg : YeeGrid g)
    (gd : Polygons (List (ℝ × ℝ))) (bg : (Fin 3 → Nat) → E) (n : Fin 3) (ctr extent : Fin 3 → ℝ) (hx : ∀ a, 0 < extent a)
    (eps : Fin 3 → E) :
    ∃ l, drawCuboid g [] ctr extent eps = .ok l ∧ (HeightsHarmless g l →
      ∃ v, render3 g gd id bg n false l = .ok v ∧ ∀ c, OnGrid g c → v c = bg c +
        (∏ a, covered (ctr a - extent a / 2) (ctr a + extent a / 2) (side g n c a).1 (side g n c a).2) • (eps n - bg c)) := by
  rw [drawCuboid_eq, if_neg (not_le.2 (hx _)), List.nil_append]
  have hz : ctr g.ext - extent g.ext / 2 < ctr g.ext + extent g.ext / 2 := by linarith [hx g.ext]
  have h1 : ∀ a, ctr a - extent a / 2 < ctr a + extent a / 2 := fun a => by linarith [hx a]
  refine ⟨_, rfl, fun hh => ?_⟩
  obtain ⟨v, hv, hc⟩ := render3_cells hg gd id bg n _ hh (by
    intro ps hps p hp
    have e0 : layerZ [(⟨corners (ctr (planar g.ext).1 - extent (planar g.ext).1 / 2)
        (ctr (planar g.ext).1 + extent (planar g.ext).1 / 2) (ctr (planar g.ext).2 - extent (planar g.ext).2 / 2)
        (ctr (planar g.ext).2 + extent (planar g.ext).2 / 2), ctr g.ext - extent g.ext / 2, ctr g.ext + extent g.ext / 2,
        eps⟩ : Drawn ℝ (List (ℝ × ℝ)) (Fin 3 → E))] = [ctr g.ext - extent g.ext / 2, ctr g.ext + extent g.ext / 2] := by
      have : ([ctr g.ext - extent g.ext / 2, ctr g.ext + extent g.ext / 2] : List ℝ).dedup =
          [ctr g.ext - extent g.ext / 2, ctr g.ext + extent g.ext / 2] := by
        rw [List.dedup_eq_self]
        simpa using hz.ne
      simp only [layerZ, List.flatMap_cons, List.flatMap_nil, List.append_nil, this]
      refine List.Pairwise.insertionSort_eq ?_
      simpa using hz.le
    have e1 : ∀ (lz : List ℝ) (s : Drawn ℝ (List (ℝ × ℝ)) (Fin 3 → E)), ∀ q ∈ (addToLayers lz [[]] s).map (reduceLayer gd),
        ∀ p ∈ q, p = (s.region, s.eps) := by
      intro lz s q hq p hp
      simp only [addToLayers, List.mapIdx_cons, List.mapIdx_nil, List.map_cons, List.map_nil, List.mem_singleton] at hq
      subst hq
      split_ifs at hp
      · simpa [reduceLayer] using hp
      · simp [reduceLayer] at hp
    have e2 := e1 _ _ ps (by
      simp only [computeLayers, e0, List.foldl_cons, List.foldl_nil] at hps
      exact hps) p hp
    rw [e2]
    refine ⟨by simp [corners], ⟨_, List.mem_cons_self, _, List.mem_cons_of_mem _ List.mem_cons_self, (h1 _).ne⟩,
      ⟨_, List.mem_cons_self, _, List.mem_cons_of_mem _ (List.mem_cons_of_mem _ List.mem_cons_self), (h1 _).ne'⟩⟩)
  refine ⟨v, hv, fun c hcg => ?_⟩
  rw [hc c hcg, single_cell _ _ _ _ _ _ _ _ hz]
  simp only [id]
  rw [share_rectangle (h1 _) (h1 _) (side_lt hg n c hcg _) (side_lt hg n c hcg _),
    prod_axes g.ext fun a => covered (ctr a - extent a / 2) (ctr a + extent a / 2) (side g n c a).1 (side g n c a).2]

/-! ### Slabs and fillings -/

/-- The width of the half cell before the first edge, twice. -/
noncomputable def before (g : Grid3 ℝ) (a : Fin 3) : ℝ :=
  if g.periodic a then (g.exyz a).getD 1 0 - (g.exyz a).getD 0 0
  else (g.exyz a).getD ((g.exyz a).length - 1) 0 - (g.exyz a).getD ((g.exyz a).length - 2) 0

theorem edge_lt {g : Grid3 ℝ} (hg : YeeGrid g) (a : Fin 3) {i j : Nat} (h : i < j) (hj : j < (g.exyz a).length) :
    (g.exyz a).getD i 0 < (g.exyz a).getD j 0 := at'_lt (hg.inc a) h hj

theorem edge_le {g : Grid3 ℝ} (hg : YeeGrid g) (a : Fin 3) {i j : Nat} (h : i ≤ j) (hj : j < (g.exyz a).length) :
    (g.exyz a).getD i 0 ≤ (g.exyz a).getD j 0 := by
  rcases Nat.eq_or_lt_of_le h with rfl | h
  · exact le_rfl
  · exact (edge_lt hg a h hj).le

theorem before_pos {g : Grid3 ℝ} (hg : YeeGrid g) (a : Fin 3) : 0 < before g a := by
  have := hg.two a
  unfold before
  split_ifs
  · exact sub_pos.2 (edge_lt hg a (by omega) (by omega))
  · exact sub_pos.2 (edge_lt hg a (by omega) (by omega))

theorem side_upper {g : Grid3 ℝ} (hg : YeeGrid g) (n : Fin 3) (c : Fin 3 → Nat) (hc : OnGrid g c) (a : Fin 3) :
    (side g n c a).2 ≤ (g.exyz a).getD ((g.exyz a).length - 1) 0 := by
  have h := hc a
  have h1 := edge_le hg a (i := c a + 1) (j := (g.exyz a).length - 1) (by omega) (by omega)
  have h2 := edge_le hg a (i := c a) (j := (g.exyz a).length - 1) (by omega) (by omega)
  unfold side yeeCell
  split_ifs <;> simp only <;> linarith

theorem side_lower {g : Grid3 ℝ} (hg : YeeGrid g) (n : Fin 3) (c : Fin 3 → Nat) (hc : OnGrid g c) (a : Fin 3) :
    (g.exyz a).getD 0 0 - before g a / 2 ≤ (side g n c a).1 ∧ (n = a → (g.exyz a).getD 0 0 ≤ (side g n c a).1) := by
  have h := hc a
  have h0 := before_pos hg a
  have h1 := edge_le hg a (i := 0) (j := c a - 1) (by omega) (by omega)
  have h2 := edge_le hg a (i := 0) (j := c a) (by omega) (by omega)
  by_cases ha : a = n
  · simp only [side, yeeCell, ha, decide_true, if_true]
    subst ha
    exact ⟨by linarith, fun _ => h2⟩
  · refine ⟨?_, fun h => absurd h.symm ha⟩
    simp only [side, yeeCell, ha, decide_false, Bool.false_eq_true, if_false]
    split_ifs with h3 h4
    · unfold before
      rw [if_pos h4]
    · unfold before
      rw [if_neg h4]
    · linarith

theorem covered_all {a b c d : ℝ} (h1 : a ≤ c) (h2 : d ≤ b) (h : c < d) : covered a b c d = 1 := by
  rw [covered, min_eq_right h2, max_eq_right h1, max_eq_right (by linarith), div_self (by linarith)]

/-- The grid is covered by a slab along the axis `a`: always if it is not periodic, and if its first cell is not wider
than its last one otherwise. -/
def SlabReaches (g : Grid3 ℝ) (a : Fin 3) : Prop :=
  g.periodic a = true → (g.exyz a).getD 1 0 - (g.exyz a).getD 0 0 ≤
    (g.exyz a).getD ((g.exyz a).length - 1) 0 - (g.exyz a).getD ((g.exyz a).length - 2) 0

/-- **C87.** A slab: each cell gets the permittivity of the slab in the part of it between the faces of the slab, and the
slab has no end along the other axes. Missing: periodic grids with a wide first cell, see `slab_periodic_false`. -/
theorem slab_value_partial {E : Type} [AddCommGroup E] [Module ℝ E] {g : Grid3 ℝ} (hg : YeeGrid g)
    (gd : Polygons (List (ℝ × ℝ))) (bg : (Fin 3 → Nat) → E) (n dir : Fin 3) (hs : ∀ a, a ≠ dir → SlabReaches g a)
    (ctr thickness : ℝ) (ht : 0 < thickness) (eps : Fin 3 → E) :
    ∃ l, drawSlab g [] dir ctr thickness eps = .ok l ∧ (HeightsHarmless g l →
      ∃ v, render3 g gd id bg n false l = .ok v ∧ ∀ c, OnGrid g c → v c = bg c +
        covered (ctr - thickness / 2) (ctr + thickness / 2) (side g n c dir).1 (side g n c dir).2 • (eps n - bg c)) := by
  obtain ⟨l, hl, hv⟩ := cuboid_value_partial hg gd bg n (fun a => if a ≠ dir then center g a else ctr)
    (fun a => if a ≠ dir then 2 * |at' (g.exyz a) ((g.exyz a).length - 1) - at' (g.exyz a) 0| else thickness) (by
      intro a
      have := hg.two a
      split_ifs
      · have : 0 < at' (g.exyz a) ((g.exyz a).length - 1) - at' (g.exyz a) 0 :=
          sub_pos.2 (edge_lt hg a (by omega) (by omega))
        rw [abs_of_pos this]
        linarith
      · exact ht) eps
  refine ⟨l, hl, fun hh => ?_⟩
  obtain ⟨v, h1, h2⟩ := hv hh
  refine ⟨v, h1, fun c hc => ?_⟩
  rw [h2 c hc, Finset.prod_eq_single dir]
  · simp
  · intro a _ ha
    have h2 := hg.two a
    simp only [ha, ne_eq, not_false_eq_true, if_true]
    have e0 : 0 < at' (g.exyz a) ((g.exyz a).length - 1) - at' (g.exyz a) 0 := sub_pos.2 (edge_lt hg a (by omega) (by omega))
    rw [abs_of_pos e0]
    have e1 : at' (g.exyz a) 0 < at' (g.exyz a) 1 := edge_lt hg a (by omega) (by omega)
    have e2 : at' (g.exyz a) ((g.exyz a).length - 2) < at' (g.exyz a) ((g.exyz a).length - 1) :=
      edge_lt hg a (by omega) (by omega)
    have e3 : at' (g.exyz a) 1 ≤ at' (g.exyz a) ((g.exyz a).length - 1) := edge_le hg a (by omega) (by omega)
    have e4 : at' (g.exyz a) 0 ≤ at' (g.exyz a) ((g.exyz a).length - 2) := edge_le hg a (by omega) (by omega)
    have hb : before g a / 2 ≤ at' (g.exyz a) ((g.exyz a).length - 1) - center g a := by
      unfold before
      split_ifs with hp
      · have := hs a ha hp
        change at' (g.exyz a) 1 - at' (g.exyz a) 0 ≤ at' (g.exyz a) ((g.exyz a).length - 1) -
          at' (g.exyz a) ((g.exyz a).length - 2) at this
        change (at' (g.exyz a) 1 - at' (g.exyz a) 0) / 2 ≤ _
        simp only [center]
        linarith
      · change (at' (g.exyz a) ((g.exyz a).length - 1) - at' (g.exyz a) ((g.exyz a).length - 2)) / 2 ≤ _
        simp only [center]
        linarith
    have hc0 : at' (g.exyz a) 0 ≤ center g a := by
      simp only [center]
      linarith
    refine covered_all ?_ ?_ (side_lt hg n c hc a)
    · refine le_trans ?_ (side_lower hg n c hc a).1
      change _ ≤ at' (g.exyz a) 0 - before g a / 2
      linarith
    · refine (side_upper hg n c hc a).trans ?_
      change at' (g.exyz a) ((g.exyz a).length - 1) ≤ _
      linarith
  · simp

theorem covered_up {s t lo hi : ℝ} (h : hi ≤ t) : covered s t lo hi = covered s hi lo hi := by
  rw [covered, covered, min_eq_right h, min_self]

theorem covered_down {s t lo hi : ℝ} (h : t ≤ lo) : covered t s lo hi = covered lo s lo hi := by
  rw [covered, covered, max_eq_right h, max_self]

/-- **C87.** Filling upwards: each cell gets the permittivity in the part of it above the surface. -/
theorem fill_up_partial {E : Type} [AddCommGroup E] [Module ℝ E] {g : Grid3 ℝ} (hg : YeeGrid g)
    (gd : Polygons (List (ℝ × ℝ))) (bg : (Fin 3 → Nat) → E) (n dir : Fin 3) (hs : ∀ a, a ≠ dir → SlabReaches g a)
    (surf : ℝ) (hsurf : surf ≠ (g.exyz dir).getD ((g.exyz dir).length - 1) 0) (eps : Fin 3 → E) :
    ∃ l, fillSlab g [] (.direction dir) 1 surf eps = .ok l ∧ (HeightsHarmless g l →
      ∃ v, render3 g gd id bg n false l = .ok v ∧ ∀ c, OnGrid g c → v c = bg c +
        covered surf (side g n c dir).2 (side g n c dir).1 (side g n c dir).2 • (eps n - bg c)) := by
  have hne : edgeLimit g dir 1 - surf ≠ 0 := by
    simp only [edgeLimit]
    rw [if_neg (by norm_num)]
    exact sub_ne_zero.2 hsurf.symm
  have ht : 0 < 2 * |edgeLimit g dir 1 - surf| := mul_pos two_pos (abs_pos.2 hne)
  obtain ⟨l, hl, hv⟩ := slab_value_partial hg gd bg n dir hs
    (surf + 1 / 2 * ((1 : Int) : ℝ) * (2 * |edgeLimit g dir 1 - surf|)) (2 * |edgeLimit g dir 1 - surf|) ht eps
  refine ⟨l, by simp only [fillSlab, or_true, if_true]; exact hl, fun hh => ?_⟩
  obtain ⟨v, h1, h2⟩ := hv hh
  refine ⟨v, h1, fun c hc => ?_⟩
  rw [h2 c hc]
  congr 2
  have hu := side_upper hg n c hc dir
  have e1 : edgeLimit g dir 1 = (g.exyz dir).getD ((g.exyz dir).length - 1) 0 := by
    simp only [edgeLimit]
    rw [if_neg (by norm_num)]
    rfl
  rw [← e1] at hu
  have e2 : surf + 1 / 2 * ((1 : Int) : ℝ) * (2 * |edgeLimit g dir 1 - surf|) - 2 * |edgeLimit g dir 1 - surf| / 2 = surf := by
    push_cast
    ring
  rw [e2]
  refine covered_up (hu.trans ?_)
  have := le_abs_self (edgeLimit g dir 1 - surf)
  have := abs_nonneg (edgeLimit g dir 1 - surf)
  push_cast
  linarith

/-- **C87.** Filling downwards: each cell gets the permittivity in the part of it below the surface. Missing: surfaces less
than half a cell above the first edge, for the components with cells around the edges, see `fill_down_false`. -/
theorem fill_down_partial {E : Type} [AddCommGroup E] [Module ℝ E] {g : Grid3 ℝ} (hg : YeeGrid g)
    (gd : Polygons (List (ℝ × ℝ))) (bg : (Fin 3 → Nat) → E) (n dir : Fin 3) (hs : ∀ a, a ≠ dir → SlabReaches g a)
    (surf : ℝ) (hsurf : surf ≠ (g.exyz dir).getD 0 0) (hb : n = dir ∨ before g dir / 2 ≤ surf - (g.exyz dir).getD 0 0)
    (eps : Fin 3 → E) :
    ∃ l, fillSlab g [] (.direction dir) (-1) surf eps = .ok l ∧ (HeightsHarmless g l →
      ∃ v, render3 g gd id bg n false l = .ok v ∧ ∀ c, OnGrid g c → v c = bg c +
        covered (side g n c dir).1 surf (side g n c dir).1 (side g n c dir).2 • (eps n - bg c)) := by
  have e1 : edgeLimit g dir (-1) = (g.exyz dir).getD 0 0 := by
    simp only [edgeLimit, if_true]
    rfl
  have hne : edgeLimit g dir (-1) - surf ≠ 0 := by
    rw [e1]
    exact sub_ne_zero.2 hsurf.symm
  have ht : 0 < 2 * |edgeLimit g dir (-1) - surf| := mul_pos two_pos (abs_pos.2 hne)
  obtain ⟨l, hl, hv⟩ := slab_value_partial hg gd bg n dir hs
    (surf + 1 / 2 * ((-1 : Int) : ℝ) * (2 * |edgeLimit g dir (-1) - surf|)) (2 * |edgeLimit g dir (-1) - surf|) ht eps
  refine ⟨l, by simp only [fillSlab, true_or, if_true]; exact hl, fun hh => ?_⟩
  obtain ⟨v, h1, h2⟩ := hv hh
  refine ⟨v, h1, fun c hc => ?_⟩
  rw [h2 c hc]
  congr 2
  have e2 : surf + 1 / 2 * ((-1 : Int) : ℝ) * (2 * |edgeLimit g dir (-1) - surf|) + 2 * |edgeLimit g dir (-1) - surf| / 2 =
      surf := by
    push_cast
    ring
  rw [e2]
  refine covered_down ?_
  have a1 := neg_le_abs (edgeLimit g dir (-1) - surf)
  have a2 := abs_nonneg (edgeLimit g dir (-1) - surf)
  rw [e1] at a1 a2 ⊢
  push_cast
  obtain ⟨l1, l2⟩ := side_lower hg n c hc dir
  rcases hb with hb | hb
  · have := l2 hb
    linarith
  · linarith

/-! ### The constructor -/

/-- **C87.** The constructor accepts the extrusion axes 0, 1 and 2. If there are two different edges along each axis, it
makes a Yee grid with the edges in increasing order and without repetitions, and one flag makes all axes periodic or not. -/
theorem grid_created (edges : Fin 3 → List ℝ) (periodic : Bool ⊕ List Bool) (ext : Int) :
    (mkGrid edges periodic ext = .error .gridError ↔ ¬ (0 ≤ ext ∧ ext ≤ 2)) ∧
    ∀ g, mkGrid edges periodic ext = .ok g → (∀ a x, x ∈ g.exyz a ↔ x ∈ edges a) ∧ ((g.ext : Nat) : Int) = ext ∧
      (∀ b, periodic = .inl b → ∀ a, g.periodic a = b) ∧
      ((∀ a, ∃ x ∈ edges a, ∃ y ∈ edges a, x ≠ y) → YeeGrid g) := by
  have hmem : ∀ (l : List ℝ) x, x ∈ unique l ↔ x ∈ l := fun l x => by
    unfold unique
    rw [(List.perm_insertionSort _ _).mem_iff, List.mem_dedup]
  have hinc : ∀ l : List ℝ, (unique l).Pairwise (· < ·) := fun l => by
    unfold unique
    have h1 := List.pairwise_insertionSort (· ≤ ·) l.dedup
    have h2 : (l.dedup.insertionSort (· ≤ ·)).Nodup := (List.perm_insertionSort _ _).nodup_iff.2 (List.nodup_dedup _)
    have h3 := List.pairwise_and_iff.2 ⟨h1, h2⟩
    refine h3.imp ?_
    intro a b h
    exact lt_of_le_of_ne h.1 h.2
  have htwo : ∀ l : List ℝ, (∃ x ∈ l, ∃ y ∈ l, x ≠ y) → 2 ≤ (unique l).length := fun l h => by
    obtain ⟨x, hx, y, hy, hxy⟩ := h
    have hx := (hmem l x).2 hx
    have hy := (hmem l y).2 hy
    match h : unique l, hx, hy with
    | [], hx, _ => simp at hx
    | [z], hx, hy =>
      simp only [List.mem_singleton] at hx hy
      exact absurd (hx.trans hy.symm) hxy
    | z :: w :: r, _, _ => simp
  have key : ∀ (p : Bool) (x : Fin 3), (∀ b, periodic = .inl b → p = b) → ∀ g, (Except.ok
      (⟨fun a => unique (edges a), fun _ => p, fun n a => if a = n then 1 / 2 else 0, fun n a => if a = n then 0 else 1 / 2,
        x⟩ : Grid3 ℝ) : Except DrawErr _) = .ok g → ((x : Nat) : Int) = ext →
      (∀ a x, x ∈ g.exyz a ↔ x ∈ edges a) ∧ ((g.ext : Nat) : Int) = ext ∧ (∀ b, periodic = .inl b → ∀ a, g.periodic a = b) ∧
      ((∀ a, ∃ x ∈ edges a, ∃ y ∈ edges a, x ≠ y) → YeeGrid g) := by
    intro p x hp g h hx
    cases h
    exact ⟨fun a x => hmem _ x, hx, fun b hb _ => hp b hb,
      fun h => ⟨fun a => hinc _, fun a => htwo _ (h a), fun _ _ => rfl, fun _ _ => rfl⟩⟩
  have hp : ∀ b, periodic = .inl b → periodicFlag periodic = b := by
    rintro b rfl
    rfl
  have hcases : ext = 0 ∨ ext = 1 ∨ ext = 2 ∨ ¬ (0 ≤ ext ∧ ext ≤ 2) := by omega
  rcases hcases with h | h | h | h
  · subst h
    refine ⟨⟨(fun h => nomatch h), fun h => (h (by norm_num)).elim⟩, fun g hgo => key _ 0 hp g hgo rfl⟩
  · subst h
    refine ⟨⟨(fun h => nomatch h), fun h => (h (by norm_num)).elim⟩, fun g hgo => key _ 1 hp g hgo rfl⟩
  · subst h
    refine ⟨⟨(fun h => nomatch h), fun h => (h (by norm_num)).elim⟩, fun g hgo => key _ 2 hp g hgo rfl⟩
  · have e : mkGrid edges periodic ext = .error .gridError := by
      simp only [mkGrid]
      rw [if_neg (by omega), if_neg (by omega), if_neg (by omega)]
    rw [e]
    exact ⟨⟨fun _ => h, fun _ => rfl⟩, fun g h => nomatch h⟩

/-! ### Where C87 fails -/

/-- A list of flags for the periodicity is not used. -/
theorem periodic_list_false (edges : Fin 3 → List ℝ) (flags : List Bool) (ext : Int) (g : Grid3 ℝ)
    (h : mkGrid edges (.inr flags) ext = .ok g) (a : Fin 3) : g.periodic a = false := by
  simp only [mkGrid] at h
  split_ifs at h <;> cases h <;> rfl

/-- A direction given as a number, as the constructor and `draw_slab` accept it, makes `fill_slab` and `fill_cuboid` raise
`NameError`. -/
theorem fill_number_false (g : Grid3 ℝ) (l : List (Drawn ℝ (List (ℝ × ℝ)) ℂ)) (k pol : Int) (surf : ℝ) (s : Fin 3 → ℝ)
    (x : ℝ × ℝ) (ints : Bool) (eps : ℂ) :
    fillSlab g l (.number k) pol surf eps = .error .nameError ∧
      fillCuboid g l (.number k) pol s x ints eps = .error .nameError := ⟨rfl, rfl⟩

/-- Draw and render one object over the rationals, with the background 1, and read off some cells of a component. -/
def drawn (g : Except DrawErr (Grid3 ℚ)) (draw : Grid3 ℚ → Except DrawErr (List (Drawn ℚ (List (ℚ × ℚ)) (Fin 3 → ℚ))))
    (n : Fin 3) (cells : List (Fin 3 → Nat)) : Except DrawErr (List ℚ) :=
  match g with
  | .error e => .error e
  | .ok g =>
    match draw g with
    | .error e => .error e
    | .ok l =>
      match render3 g ⟨fun _ _ => [], fun _ _ => false⟩ id (fun _ => 1) n false l with
      | .error e => .error e
      | .ok v => .ok (cells.map v)

/-- **C87** is false for thin cells: of the layer of permittivity 5 between 1/4 and 3/4, in cells of thickness 1/4, only the
lower half is drawn. -/
theorem render_thin_false :
    drawn (mkGrid (fun a => if a = 2 then [0, 1 / 4, 1 / 2, 3 / 4, 1] else [0, 1]) (.inl false) 2)
      (fun g => drawCuboid g [] (fun _ => 1 / 2) (fun a => if a = 2 then 1 / 2 else 2) fun _ => 5) 2
      [![0, 0, 0], ![0, 0, 1], ![0, 0, 2], ![0, 0, 3]] = .ok [1, 5, 1, 1] := by
  decide +kernel

/-- **C87** is false for slabs on a periodic grid with a wide first cell: the slab does not reach its end. The cell lies
inside of the slab of permittivity 5 but for its last axis and has the value 1 + 33/40 · 4. -/
theorem slab_periodic_false :
    drawn (mkGrid (fun a => if a = 0 then [0, 10, 11] else [0, 2, 4]) (.inl true) 2)
      (fun g => drawSlab g [] 2 2 4 fun _ => 5) 2 [![0, 1, 1], ![1, 1, 1]] = .ok [1 + 33 / 40 * 4, 5] := by
  decide +kernel

/-- **C87** is false for filling downwards from a surface close to the first edge: of the first cell, from -1/2 to 1/2, three
quarters are below the surface 1/4 and half is filled. -/
theorem fill_down_false :
    drawn (mkGrid (fun a => if a = 0 then [0, 1, 2] else [0, 2]) (.inl false) 2)
      (fun g => fillSlab g [] (.direction 0) (-1) (1 / 4) fun _ => 5) 2 [![0, 0, 0]] = .ok [1 + 1 / 2 * 4] := by
  decide +kernel

/-- **C87** is false for `fill_cuboid` with an extent given in integers: the depth is rounded, here from 1/2 to 0, and the
cuboid is refused. With an extent given in floats the upper quarter of the cell is filled. -/
theorem fill_integer_false :
    drawn (mkGrid (fun _ => [0, 1]) (.inl false) 2)
      (fun g => fillCuboid g [] (.direction 2) 1 (fun a => if a = 2 then 3 / 4 else 1 / 2) (2, 2) true fun _ => 5) 2
      [![0, 0, 0]] = .error .gridError ∧
    drawn (mkGrid (fun _ => [0, 1]) (.inl false) 2)
      (fun g => fillCuboid g [] (.direction 2) 1 (fun a => if a = 2 then 3 / 4 else 1 / 2) (2, 2) false fun _ => 5) 2
      [![0, 0, 0]] = .ok [1 + 1 / 4 * 4] := by
  decide +kernel

/-! ### The hypotheses can be met -/

/-- A rectangle. -/
structure Rect where
  x0 : ℝ
  x1 : ℝ
  y0 : ℝ
  y1 : ℝ
  hx : x0 < x1
  hy : y0 < y1

/-- The vertices of a rectangle. -/
def Rect.outline (r : Rect) : List (ℝ × ℝ) := corners r.x0 r.x1 r.y0 r.y1

/-- The rectangle between these bounds, if there is one. -/
noncomputable def rect (x0 x1 y0 y1 : ℝ) : List Rect :=
  if h : x0 < x1 ∧ y0 < y1 then [⟨x0, x1, y0, y1, h.1, h.2⟩] else []

/-- The points of `p` outside of `q`: on the left and on the right of `q`, below and above. -/
noncomputable def Rect.diff (p q : Rect) : List Rect :=
  rect p.x0 (min p.x1 q.x0) p.y0 p.y1 ++ rect (max p.x0 q.x1) p.x1 p.y0 p.y1 ++
    rect (max p.x0 q.x0) (min p.x1 q.x1) p.y0 (min p.y1 q.y0) ++ rect (max p.x0 q.x0) (min p.x1 q.x1) (max p.y0 q.y1) p.y1

theorem winding_rectangle {x0 x1 y0 y1 : ℝ} (hx : x0 < x1) (hy : y0 < y1) (z : ℝ × ℝ) :
    winding (corners x0 x1 y0 y1) z = if x0 < z.1 ∧ z.1 ≤ x1 ∧ y0 < z.2 ∧ z.2 ≤ y1 then 1 else 0 := by
  have h1 : ∀ x u v, xAt (x, u) (x, v) z.2 = x := fun x u v => by simp [xAt]
  have e : winding (corners x0 x1 y0 y1) z = crossing (x0, y1) (x1, y1) z + (crossing (x1, y1) (x1, y0) z +
      (crossing (x1, y0) (x0, y0) z + crossing (x0, y0) (x0, y1) z)) := by
    simp [winding, corners, List.rotate]
  have c1 : ∀ u v y, crossing (u, y) (v, y) z = 0 := fun u v y => by
    unfold crossing
    rw [if_neg fun h => absurd (h.1.trans_le h.2.1) (lt_irrefl _), if_neg fun h => absurd (h.1.trans_le h.2.1) (lt_irrefl _)]
  have c2 : ∀ x, crossing (x, y1) (x, y0) z = if y0 < z.2 ∧ z.2 ≤ y1 ∧ x < z.1 then -1 else 0 := fun x => by
    unfold crossing
    simp only [h1]
    rw [if_neg fun h => absurd ((h.1.trans_le h.2.1).trans hy) (lt_irrefl _)]
  have c3 : ∀ x, crossing (x, y0) (x, y1) z = if y0 < z.2 ∧ z.2 ≤ y1 ∧ x < z.1 then 1 else 0 := fun x => by
    unfold crossing
    simp only [h1]
    split_ifs with a b
    · rfl
    · exact absurd ((b.1.trans_le b.2.1).trans hy) (lt_irrefl _)
    · rfl
  rw [e, c1, c1, c2, c3]
  by_cases a1 : y0 < z.2 ∧ z.2 ≤ y1
  · by_cases a2 : x1 < z.1
    · have : x0 < z.1 := hx.trans a2
      simp [a1, a2, this, not_le.2 a2]
    · by_cases a3 : x0 < z.1
      · simp [a1, a2, a3, not_lt.1 a2]
      · simp [a1, a2, a3]
  · have b1 : ∀ x, ¬ (y0 < z.2 ∧ z.2 ≤ y1 ∧ x < z.1) := fun x h => a1 ⟨h.1, h.2.1⟩
    have b2 : ¬ (x0 < z.1 ∧ z.1 ≤ x1 ∧ y0 < z.2 ∧ z.2 ≤ y1) := fun h => a1 h.2.2
    simp [b1, b2]

theorem Rect.inside (r : Rect) (z : ℝ × ℝ) :
    insideOf r.outline z = true ↔ r.x0 < z.1 ∧ z.1 ≤ r.x1 ∧ r.y0 < z.2 ∧ z.2 ≤ r.y1 := by
  unfold insideOf Rect.outline
  rw [winding_rectangle r.hx r.hy]
  split_ifs with h <;> simp [h]

theorem Rect.proper (r : Rect) : Proper r.outline := by
  refine ⟨by simp [Rect.outline, corners], ⟨_, List.mem_cons_self, _, List.mem_cons_of_mem _ List.mem_cons_self, r.hx.ne⟩,
    ⟨_, List.mem_cons_self, _, List.mem_cons_of_mem _ (List.mem_cons_of_mem _ List.mem_cons_self), r.hy.ne'⟩,
    Or.inl fun z => ?_⟩
  unfold Rect.outline
  rw [winding_rectangle r.hx r.hy]
  split_ifs <;> simp

theorem rect_count (x0 x1 y0 y1 : ℝ) (z : ℝ × ℝ) :
    ((rect x0 x1 y0 y1).filter fun r => insideOf r.outline z).length =
      if x0 < z.1 ∧ z.1 ≤ x1 ∧ y0 < z.2 ∧ z.2 ≤ y1 then 1 else 0 := by
  unfold rect
  split_ifs with h h2 h2
  · have := (Rect.inside ⟨x0, x1, y0, y1, h.1, h.2⟩ z).2 h2
    simp [this]
  · have : ¬ insideOf (Rect.outline ⟨x0, x1, y0, y1, h.1, h.2⟩) z = true := fun h3 => h2 ((Rect.inside _ z).1 h3)
    simp [this]
  · exact absurd ⟨h2.1.trans_le h2.2.1, h2.2.2.1.trans_le h2.2.2.2⟩ h
  · rfl

/-- For rectangles the difference is right about all points. -/
theorem Rect.diff_right (x : ℝ × ℝ) : DiffRight Rect.outline Rect.diff x := by
  intro p q
  unfold Rect.diff
  simp only [List.filter_append, List.length_append, rect_count]
  have hq : insideOf q.outline x = false ↔ ¬ (q.x0 < x.1 ∧ x.1 ≤ q.x1 ∧ q.y0 < x.2 ∧ x.2 ≤ q.y1) := by
    rw [← Rect.inside q x]
    simp
  simp only [hq, Rect.inside p x, le_min_iff, max_lt_iff]
  by_cases b : p.x0 < x.1 ∧ x.1 ≤ p.x1 ∧ p.y0 < x.2 ∧ x.2 ≤ p.y1
  · obtain ⟨b1, b2, b3, b4⟩ := b
    simp only [b1, b2, b3, b4, true_and, and_true]
    simp only [← not_lt (a := q.x0), ← not_le (b := q.x1), ← not_lt (a := q.y0), ← not_le (b := q.y1)]
    have h1 : q.x0 < x.1 ∨ x.1 ≤ q.x1 := (lt_or_ge q.x0 x.1).imp_right fun h => h.trans q.hx.le
    have h2 : q.y0 < x.2 ∨ x.2 ≤ q.y1 := (lt_or_ge q.y0 x.2).imp_right fun h => h.trans q.hy.le
    by_cases a1 : q.x0 < x.1 <;> by_cases a2 : x.1 ≤ q.x1
    · by_cases a3 : q.y0 < x.2 <;> by_cases a4 : x.2 ≤ q.y1
      · simp only [a1, a2, a3, a4]; simp
      · simp only [a1, a2, a3, a4]; simp
      · simp only [a1, a2, a3, a4]; simp
      · exact absurd h2 (not_or.2 ⟨a3, a4⟩)
    · simp only [a1, a2]; simp
    · simp only [a1, a2]; simp
    · exact absurd h1 (not_or.2 ⟨a1, a2⟩)
  · rw [if_neg fun h => b ⟨h.1, h.2.1.1, h.2.2⟩, if_neg fun h => b ⟨h.1.1, h.2⟩,
      if_neg fun h => b ⟨h.1.1, h.2.1.1, h.2.2.1, h.2.2.2.1⟩, if_neg fun h => b ⟨h.1.1, h.2.1.1, h.2.2.1.1, h.2.2.2⟩,
      if_neg fun h => b h.1]

/-- Two overlapping bars on a grid with cells of width 1, 2 and 3 and thickness 2, in silicon and in glass. The theorem
`render_average_partial` applies to them. -/
example : ∃ (g : Grid3 ℝ) (l : List (Drawn ℝ Rect (Fin 3 → ℂ))), YeeGrid g ∧ (∀ r, Proper (Rect.outline r)) ∧
    (∀ᵐ x : ℝ × ℝ, DiffRight Rect.outline Rect.diff x) ∧ HeightsHarmless g l ∧ l.length = 2 ∧ OnGrid g ![1, 2, 1] := by
  have hp : ([0, 1, 3, 6] : List ℝ).Pairwise (· < ·) := by norm_num
  have hp2 : ([0, 2, 4, 6] : List ℝ).Pairwise (· < ·) := by norm_num
  refine ⟨⟨fun a => if a = 2 then [0, 2, 4, 6] else [0, 1, 3, 6], fun _ => false, fun n a => if a = n then 1 / 2 else 0,
    fun n a => if a = n then 0 else 1 / 2, 2⟩,
    [⟨⟨0, 3, 1, 2, by norm_num, by norm_num⟩, 1 / 2, 3, fun _ => 12⟩,
      ⟨⟨1, 2, 0, 3, by norm_num, by norm_num⟩, 1, 7 / 2, fun _ => 2⟩],
    ⟨fun a => ?_, fun a => ?_, fun _ _ => rfl, fun _ _ => rfl⟩, Rect.proper, Filter.Eventually.of_forall Rect.diff_right,
    Or.inr fun i hi => ?_, rfl, fun a => ?_⟩
  · simp only
    split_ifs
    · exact hp2
    · exact hp
  · simp only
    split_ifs <;> simp
  · simp only [if_true] at hi ⊢
    have : i = 0 ∨ i = 1 ∨ i = 2 := by simp at hi; omega
    rcases this with rfl | rfl | rfl <;> norm_num
  · fin_cases a <;> simp

/-- The grid of the other theorems, not periodic, so that slabs reach its ends. -/
example : ∃ g : Grid3 ℝ, YeeGrid g ∧ (∀ a, SlabReaches g a) ∧ before g 2 / 2 ≤ (3 : ℝ) - (g.exyz 2).getD 0 0 ∧
    (3 : ℝ) ≠ (g.exyz 2).getD 0 0 := by
  have hp2 : ([0, 2, 4, 6] : List ℝ).Pairwise (· < ·) := by norm_num
  refine ⟨⟨fun a => [0, 2, 4, 6], fun _ => false, fun n a => if a = n then 1 / 2 else 0,
    fun n a => if a = n then 0 else 1 / 2, 2⟩, ⟨fun a => hp2, fun a => by simp, fun _ _ => rfl, fun _ _ => rfl⟩,
    fun a h => ?_, ?_, ?_⟩
  · cases h
  · norm_num [before]
  · norm_num

end Verif.Render.Draw
