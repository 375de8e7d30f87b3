import Verif.Render.PolygonIntegral
import Mathlib.MeasureTheory.Integral.Prod
/-
C86: the image of a polygon. The value of a pixel is the absolute value of the integral of the winding number over the
pixel, divided by the area of the pixel; for a polygon which does not cross itself this is the covered part of the pixel.
-/
set_option linter.unusedVariables false
set_option linter.unusedSectionVars false
namespace Verif.Render.Polygon

open Verif.Render MeasureTheory Set

/-! ### The box of the polygon -/

section box

variable {K : Type} [Field K] [LinearOrder K] [IsStrictOrderedRing K]

theorem lowest_spec (c : K) (l : List K) :
    (∀ x ∈ c :: l, lowest c l ≤ x) ∧ lowest c l ∈ c :: l := by
  unfold lowest
  induction l generalizing c with
  | nil => simp
  | cons d l ih =>
    obtain ⟨h1, h2⟩ := ih (min c d)
    have h0 := h1 (min c d) List.mem_cons_self
    refine ⟨?_, ?_⟩
    · intro x hx
      simp only [List.foldl_cons]
      rcases List.mem_cons.1 hx with rfl | hx
      · exact le_trans h0 (min_le_left _ _)
      · rcases List.mem_cons.1 hx with rfl | hx
        · exact le_trans h0 (min_le_right _ _)
        · exact h1 x (List.mem_cons_of_mem _ hx)
    · simp only [List.foldl_cons]
      rcases List.mem_cons.1 h2 with h | h
      · rw [h]
        rcases min_choice c d with e | e <;> rw [e] <;> simp
      · exact List.mem_cons_of_mem _ (List.mem_cons_of_mem _ h)

theorem highest_spec (c : K) (l : List K) : ∀ x ∈ c :: l, x ≤ highest c l := by
  unfold highest
  induction l generalizing c with
  | nil => simp
  | cons d l ih =>
    have h1 := ih (max c d)
    have h0 := h1 (max c d) List.mem_cons_self
    intro x hx
    simp only [List.foldl_cons]
    rcases List.mem_cons.1 hx with rfl | hx
    · exact le_trans (le_max_left _ _) h0
    · rcases List.mem_cons.1 hx with rfl | hx
      · exact le_trans (le_max_right _ _) h0
      · exact h1 x (List.mem_cons_of_mem _ hx)

theorem box_mem (p : K × K) (l : List (K × K)) :
    ∀ u ∈ p :: l, Box (lowest p.1 (l.map Prod.fst)) (highest p.1 (l.map Prod.fst)) (lowest p.2 (l.map Prod.snd))
      (highest p.2 (l.map Prod.snd)) u := by
  intro u hu
  have h1 : u.1 ∈ p.1 :: l.map Prod.fst := by
    have := List.mem_map_of_mem (f := Prod.fst) hu
    simpa using this
  have h2 : u.2 ∈ p.2 :: l.map Prod.snd := by
    have := List.mem_map_of_mem (f := Prod.snd) hu
    simpa using this
  exact ⟨(lowest_spec _ _).1 _ h1, highest_spec _ _ _ h1, (lowest_spec _ _).1 _ h2, highest_spec _ _ _ h2⟩

theorem pairs_mem {A : Type} (u : A) (l : List A) : ∀ s ∈ pairs u l, s.1 ∈ u :: l ∧ s.2 ∈ u :: l := by
  induction l generalizing u with
  | nil => simp [pairs]
  | cons v l ih =>
    intro s hs
    rcases List.mem_cons.1 hs with rfl | hs
    · simp
    · obtain ⟨a, b⟩ := ih v s hs
      exact ⟨List.mem_cons_of_mem _ a, List.mem_cons_of_mem _ b⟩

theorem closed_mem {A : Type} (p : A) (l : List A) : ∀ u ∈ p :: (l ++ [p]), u ∈ p :: l := by
  intro u hu
  simp only [List.mem_cons, List.mem_append, List.not_mem_nil, or_false] at hu ⊢
  tauto

/-- A polygon with width and height meets some line of its box. -/
theorem some_crossing (p : K × K) (l : List (K × K)) {gx gy : List K}
    (hx : lowest p.1 (l.map Prod.fst) < highest p.1 (l.map Prod.fst))
    (hy : lowest p.2 (l.map Prod.snd) < highest p.2 (l.map Prod.snd)) (hw : ∃ u ∈ p :: l, ∃ v ∈ p :: l, u.1 ≠ v.1) :
    ∃ e ∈ pairs p (l ++ [p]), edgeSteps (gridLines (lowest p.1 (l.map Prod.fst)) (highest p.1 (l.map Prod.fst))
      (lowest p.2 (l.map Prod.snd)) (highest p.2 (l.map Prod.snd)) gx gy) e.1 e.2 ≠ [] := by
  by_contra hc
  push Not at hc
  have hstay : Along (fun a b : K × K => a.1 = lowest p.1 (l.map Prod.fst) → b.1 = lowest p.1 (l.map Prod.fst)) p
      (l ++ [p]) := by
    rw [along_pairs]
    intro e he h1
    by_contra h2
    obtain ⟨m1, m2⟩ := pairs_mem p (l ++ [p]) e he
    have b1 := box_mem p l _ (closed_mem p l _ m1)
    have b2 := box_mem p l _ (closed_mem p l _ m2)
    have := crossing_x (gx := gx) (gy := gy) hy b1 b2 (by rw [h1]; exact Ne.symm h2) (c := lowest p.1 (l.map Prod.fst))
      (t := 0) (Or.inr rfl) le_rfl zero_le_one (by rw [h1]; ring)
    have hnil := hc e he
    rw [edgeSteps, List.map_eq_nil_iff] at hnil
    rw [hnil] at this
    cases this
  have hex : ∃ u ∈ p :: l, u.1 = lowest p.1 (l.map Prod.fst) := by
    have := (lowest_spec p.1 (l.map Prod.fst)).2
    rw [← List.map_cons (f := Prod.fst) (a := p), List.mem_map] at this
    exact this
  have hp := along_end p l p hstay hex
  have hall := along_all p (l ++ [p]) hstay hp
  have hall' : ∀ u ∈ p :: l, u.1 = lowest p.1 (l.map Prod.fst) := by
    intro u hu
    rcases List.mem_cons.1 hu with rfl | hu
    · exact hp
    · exact hall u (List.mem_append_left _ hu)
  obtain ⟨u, hu, v, hv, hne⟩ := hw
  exact hne ((hall' u hu).trans (hall' v hv).symm)

end box

/-! ### The image -/

/-- The value of a pixel in an image. -/
noncomputable def pixel (img : List (List ℝ)) (i j : Nat) : ℝ := (img.getD i []).getD j 0

theorem pixels_get (gx gy : List ℝ) (vs : List (ℝ × ℝ)) {i j : Nat} (hi : i + 1 < gx.length) (hj : j + 1 < gy.length) :
    pixel (pixels gx gy vs) i j =
      |pixelSum gx gy (fun s => - area gx gy s) ((edges vs).filter (nonEdge gx gy)) i j +
        ((List.range (i + 1)).map fun k =>
          pixelSum gx gy (cover gx gy) ((edges vs).filter (nonEdge gx gy)) k j).sum| := by
  have h1 : i < gx.length - 1 := by omega
  have h2 : j < gy.length - 1 := by omega
  simp [pixel, pixels, List.getD_eq_getElem?_getD, h1, h2]

/-- The grid of the pixels: the edges in increasing order, at least two in each direction. -/
structure PixelGrid (gx gy : List ℝ) : Prop where
  incX : gx.Pairwise (· < ·)
  incY : gy.Pairwise (· < ·)
  twoX : 2 ≤ gx.length
  twoY : 2 ≤ gy.length

/-- The vertices of the polygon are neither all on one vertical line nor all on one horizontal line. -/
def HasExtent (poly : List (ℝ × ℝ)) : Prop :=
  (∃ u ∈ poly, ∃ v ∈ poly, u.1 ≠ v.1) ∧ ∃ u ∈ poly, ∃ v ∈ poly, u.2 ≠ v.2

/-- **C86.** For every grid and every polygon with a width and a height `raster_2D` returns an image, whose value in each
pixel is the absolute value of the integral over the pixel of the winding number of the polygon, divided by the area of the
pixel. -/
theorem raster_exact {gx gy : List ℝ} (hg : PixelGrid gx gy) (poly : List (ℝ × ℝ)) (hp : HasExtent poly) :
    ∃ img, raster2D poly gx gy = .ok img ∧ img.length = gx.length - 1 ∧ (∀ row ∈ img, row.length = gy.length - 1) ∧
      ∀ i j, i + 1 < gx.length → j + 1 < gy.length →
        pixel img i j =
          |∫ y in gy.getD j 0..gy.getD (j + 1) 0, ∫ x in gx.getD i 0..gx.getD (i + 1) 0, (winding poly (x, y) : ℝ)| /
            ((gx.getD (i + 1) 0 - gx.getD i 0) * (gy.getD (j + 1) 0 - gy.getD j 0)) := by
  obtain ⟨hgx, hgy, lx, ly⟩ := hg
  obtain ⟨hw, hh⟩ := hp
  cases poly with
  | nil => obtain ⟨u, hu, _⟩ := hw; cases hu
  | cons p l =>
    have hbox := box_mem p l
    have hx : lowest p.1 (l.map Prod.fst) < highest p.1 (l.map Prod.fst) := by
      obtain ⟨u, hu, v, hv, hne⟩ := hw
      have bu := hbox u hu
      have bv := hbox v hv
      rcases lt_or_gt_of_ne hne with h | h
      · exact lt_of_le_of_lt bu.x0 (lt_of_lt_of_le h bv.x1)
      · exact lt_of_le_of_lt bv.x0 (lt_of_lt_of_le h bu.x1)
    have hy : lowest p.2 (l.map Prod.snd) < highest p.2 (l.map Prod.snd) := by
      obtain ⟨u, hu, v, hv, hne⟩ := hh
      have bu := hbox u hu
      have bv := hbox v hv
      rcases lt_or_gt_of_ne hne with h | h
      · exact lt_of_le_of_lt bu.y0 (lt_of_lt_of_le h bv.y1)
      · exact lt_of_le_of_lt bv.y0 (lt_of_lt_of_le h bu.y1)
    have hsome := some_crossing p l (gx := gx) (gy := gy) hx hy hw
    obtain ⟨lines, hlines⟩ : ∃ L, L = gridLines (lowest p.1 (l.map Prod.fst)) (highest p.1 (l.map Prod.fst))
      (lowest p.2 (l.map Prod.snd)) (highest p.2 (l.map Prod.snd)) gx gy := ⟨_, rfl⟩
    rw [← hlines] at hsome
    have hexp : expand (p :: l) gx gy =
        .ok (uniq (((edges (p :: l)).flatMap (expandEdge gx gy lines)).filter (onGrid gx gy))) := by
      rw [hlines]
      rfl
    obtain ⟨m, hm1, hm2⟩ := steps_append lines p p l
    rw [edges_eq, filter_expand hgx hgy lx ly, hm2] at hexp
    have hne : (((p, true) : Step ℝ) :: m).filter (kept gx gy) ≠ [] := by
      obtain ⟨e, he, hne⟩ := hsome
      obtain ⟨s, hs⟩ := List.exists_mem_of_ne_nil _ hne
      intro hnil
      rw [List.filter_eq_nil_iff] at hnil
      refine hnil s ?_ ?_
      · rw [← hm2, List.mem_flatMap]
        exact ⟨e, he, List.mem_cons_of_mem _ hs⟩
      · simp only [edgeSteps, List.mem_map] at hs
        obtain ⟨c, _, rfl⟩ := hs
        rfl
    obtain ⟨v, vs, hkeep⟩ := List.exists_cons_of_ne_nil hne
    rw [hkeep] at hexp
    simp only [List.map_cons, uniq] at hexp
    have hlink : Along (Linked gx gy) (p, true) (m ++ [(p, true)]) := by
      rw [← hm1]
      apply along_steps
      rw [along_pairs]
      intro e he
      obtain ⟨m1, m2⟩ := pairs_mem p (l ++ [p]) e he
      rw [hlines]
      exact along_edge hx hy (hbox _ (closed_mem p l _ m1)) (hbox _ (closed_mem p l _ m2))
    refine ⟨pixels gx gy (clipPoint gx gy v.1 :: uniqAfter (clipPoint gx gy v.1) (vs.map fun s => clipPoint gx gy s.1)),
      ?_, ?_, ?_, ?_⟩
    · rw [raster2D, if_neg (by omega), hexp]
    · simp [pixels]
    · intro row hrow
      simp only [pixels, List.mem_map] at hrow
      obtain ⟨i, _, rfl⟩ := hrow
      simp
    · intro i j hi hj
      have hs : Sides gx gy i j := ⟨hgx, hgy, hi, hj⟩
      have hgi : at' gx i < at' gx (i + 1) := at'_lt hgx (Nat.lt_succ_self i) hi
      have hgj : at' gy j < at' gy (j + 1) := at'_lt hgy (Nat.lt_succ_self j) hj
      obtain ⟨hsum, hnear⟩ := drop_closed hs (p, true) m hlink v vs hkeep
      rw [pixels_get gx gy _ hi hj]
      have hnear' : Along (fun a b => onGrid gx gy a = true ∧ onGrid gx gy b = true ∧ Near gx gy a b)
          (clipPoint gx gy v.1)
          (uniqAfter (clipPoint gx gy v.1) (vs.map fun s => clipPoint gx gy s.1) ++ [clipPoint gx gy v.1]) := by
        apply uniqAfter_along
        have := (along_map (fun s : Step ℝ => clipPoint gx gy s.1)
          (fun a b => onGrid gx gy a = true ∧ onGrid gx gy b = true ∧ Near gx gy a b) v (vs ++ [v])).2
          (along_mono (fun a b hab => ⟨clipPoint_onGrid hgx hgy lx ly _, clipPoint_onGrid hgx hgy lx ly _,
            clip_near hgx hgy hab⟩) _ _ hnear)
        simpa using this
      have harea := pixel_area hs (edges (clipPoint gx gy v.1 ::
        uniqAfter (clipPoint gx gy v.1) (vs.map fun s => clipPoint gx gy s.1))) (by
          rw [edges_eq]
          exact (along_pairs _ _ _).1 hnear')
      have hval : (((edges (clipPoint gx gy v.1 ::
          uniqAfter (clipPoint gx gy v.1) (vs.map fun s => clipPoint gx gy s.1))).map fun s =>
            cellArea (at' gx i) (at' gx (i + 1)) (at' gy j) (at' gy (j + 1)) s.1 s.2).sum) =
          ((edges (p :: l)).map fun e => edgeArea (at' gx i) (at' gx (i + 1)) (at' gy j) (at' gy (j + 1)) e.1 e.2).sum := by
        rw [edges_eq, pathSum_pairs, uniqAfter_sum _ (cellArea_self _ _ _ _)]
        have e1 := pathSum_map (fun s : Step ℝ => clipPoint gx gy s.1)
          (cellArea (at' gx i) (at' gx (i + 1)) (at' gy j) (at' gy (j + 1))) v (vs ++ [v])
        simp only [List.map_append, List.map_cons, List.map_nil, cellArea_clip hs] at e1
        rw [e1]
        refine Eq.trans hsum.symm ?_
        rw [← hm1, pathSum_steps, ← pathSum_pairs, edges_eq]
        congr 1
        apply List.map_congr_left
        intro e he
        obtain ⟨m1, m2⟩ := pairs_mem p (l ++ [p]) e he
        rw [hlines]
        exact edge_area hs hx hy (hbox _ (closed_mem p l _ m1)) (hbox _ (closed_mem p l _ m2))
      rw [hval, ← integral_winding hgi.le hgj.le] at harea
      have hpos : 0 < (at' gx (i + 1) - at' gx i) * (at' gy (j + 1) - at' gy j) :=
        mul_pos (sub_pos.2 hgi) (sub_pos.2 hgj)
      have := congrArg abs harea
      rw [abs_mul, abs_of_pos hpos] at this
      exact (eq_div_iff hpos.ne').2 this

/-! ### Polygons which do not cross themselves -/

theorem measurable_crossing (p q : ℝ × ℝ) : Measurable fun z => (crossing p q z : ℝ) := by
  have hx : Measurable fun z : ℝ × ℝ => xAt p q z.2 := by
    unfold xAt
    fun_prop
  have h1 : MeasurableSet {z : ℝ × ℝ | p.2 < z.2 ∧ z.2 ≤ q.2 ∧ xAt p q z.2 < z.1} :=
    (measurableSet_lt measurable_const measurable_snd).inter
      ((measurableSet_le measurable_snd measurable_const).inter (measurableSet_lt hx measurable_fst))
  have h2 : MeasurableSet {z : ℝ × ℝ | q.2 < z.2 ∧ z.2 ≤ p.2 ∧ xAt p q z.2 < z.1} :=
    (measurableSet_lt measurable_const measurable_snd).inter
      ((measurableSet_le measurable_snd measurable_const).inter (measurableSet_lt hx measurable_fst))
  have : (fun z => (crossing p q z : ℝ)) = fun z =>
      if z ∈ {z : ℝ × ℝ | p.2 < z.2 ∧ z.2 ≤ q.2 ∧ xAt p q z.2 < z.1} then (1 : ℝ)
      else if z ∈ {z : ℝ × ℝ | q.2 < z.2 ∧ z.2 ≤ p.2 ∧ xAt p q z.2 < z.1} then -1 else 0 := by
    funext z
    simp only [crossing, mem_ofPred_eq]
    split_ifs <;> simp
  rw [this]
  exact Measurable.ite h1 measurable_const (Measurable.ite h2 measurable_const measurable_const)

theorem measurable_winding (poly : List (ℝ × ℝ)) : Measurable fun z => (winding poly z : ℝ) := by
  simp only [winding_eq]
  induction edges poly with
  | nil => simp
  | cons e l ih =>
    simp only [List.map_cons, List.sum_cons]
    exact (measurable_crossing e.1 e.2).add ih

/-- The points of a pixel which the polygon goes round. -/
def inside (poly : List (ℝ × ℝ)) (a b c d : ℝ) : Set (ℝ × ℝ) := {z ∈ Ioc a b ×ˢ Ioc c d | winding poly z ≠ 0}

theorem measurableSet_inside (poly : List (ℝ × ℝ)) (a b c d : ℝ) : MeasurableSet (inside poly a b c d) := by
  have : inside poly a b c d = (Ioc a b ×ˢ Ioc c d) ∩ (fun z => (winding poly z : ℝ)) ⁻¹' {0}ᶜ := by
    ext z
    simp [inside]
  rw [this]
  exact (measurableSet_Ioc.prod measurableSet_Ioc).inter (measurable_winding poly (measurableSet_singleton 0).compl)

theorem integral_simple {a b c d : ℝ} (hab : a ≤ b) (hcd : c ≤ d) (poly : List (ℝ × ℝ)) (e : ℤ)
    (hs : ∀ z, winding poly z = 0 ∨ winding poly z = e) :
    ∫ y in c..d, ∫ x in a..b, (winding poly (x, y) : ℝ) = e * volume.real (inside poly a b c d) := by
  have hw : ∀ z, (winding poly z : ℝ) = {z | winding poly z ≠ 0}.indicator (fun _ => (e : ℝ)) z := by
    intro z
    by_cases hz : winding poly z = 0
    · rw [indicator_of_notMem (by simpa using hz), hz, Int.cast_zero]
    · rw [indicator_of_mem (show z ∈ {z | winding poly z ≠ 0} from hz), (hs z).resolve_left hz]
  have hfin : IsFiniteMeasure ((volume.restrict (Ioc a b)).prod (volume.restrict (Ioc c d))) := inferInstance
  have hint : Integrable (fun z : ℝ × ℝ => (winding poly z : ℝ))
      ((volume.restrict (Ioc a b)).prod (volume.restrict (Ioc c d))) := by
    refine Integrable.of_bound (measurable_winding poly).aestronglyMeasurable |(e : ℝ)| (Filter.Eventually.of_forall ?_)
    intro z
    rcases hs z with h | h
    · rw [h]
      simp
    · rw [h, Real.norm_eq_abs]
  have hp := integral_prod_symm _ hint
  rw [intervalIntegral.integral_of_le hcd]
  simp only [intervalIntegral.integral_of_le hab]
  rw [← hp, Measure.prod_restrict, ← Measure.volume_eq_prod]
  have hset : MeasurableSet {z : ℝ × ℝ | winding poly z ≠ 0} := by
    have : {z : ℝ × ℝ | winding poly z ≠ 0} = (fun z => (winding poly z : ℝ)) ⁻¹' {0}ᶜ := by
      ext z
      simp
    rw [this]
    exact measurable_winding poly (measurableSet_singleton 0).compl
  simp only [hw]
  rw [setIntegral_indicator hset]
  simp only [integral_const, smul_eq_mul]
  rw [Measure.real, Measure.restrict_apply_univ, mul_comm]
  rfl

/-- **C86.** If the polygon goes round each point once or not at all, and always in the same direction, as one which does
not cross itself does, then the value of a pixel is the part of its area which is inside of the polygon, and it is
between 0 and 1. -/
theorem raster_covered {gx gy : List ℝ} (hg : PixelGrid gx gy) (poly : List (ℝ × ℝ)) (hp : HasExtent poly)
    (hs : (∀ z, winding poly z = 0 ∨ winding poly z = 1) ∨ ∀ z, winding poly z = 0 ∨ winding poly z = -1) :
    ∃ img, raster2D poly gx gy = .ok img ∧ ∀ i j, i + 1 < gx.length → j + 1 < gy.length →
      pixel img i j =
        volume.real {z ∈ Ioc (gx.getD i 0) (gx.getD (i + 1) 0) ×ˢ Ioc (gy.getD j 0) (gy.getD (j + 1) 0) |
          winding poly z ≠ 0} /
        volume.real (Ioc (gx.getD i 0) (gx.getD (i + 1) 0) ×ˢ Ioc (gy.getD j 0) (gy.getD (j + 1) 0)) ∧
      0 ≤ pixel img i j ∧ pixel img i j ≤ 1 := by
  obtain ⟨img, h1, _, _, h4⟩ := raster_exact hg poly hp
  refine ⟨img, h1, fun i j hi hj => ?_⟩
  have hgi : at' gx i < at' gx (i + 1) := at'_lt hg.incX (Nat.lt_succ_self i) hi
  have hgj : at' gy j < at' gy (j + 1) := at'_lt hg.incY (Nat.lt_succ_self j) hj
  have hcell : volume.real (Ioc (at' gx i) (at' gx (i + 1)) ×ˢ Ioc (at' gy j) (at' gy (j + 1))) =
      (at' gx (i + 1) - at' gx i) * (at' gy (j + 1) - at' gy j) := by
    rw [Measure.volume_eq_prod, measureReal_prod_prod, Real.volume_real_Ioc_of_le hgi.le,
      Real.volume_real_Ioc_of_le hgj.le]
  have hval : pixel img i j = volume.real (inside poly (at' gx i) (at' gx (i + 1)) (at' gy j) (at' gy (j + 1))) /
      volume.real (Ioc (at' gx i) (at' gx (i + 1)) ×ˢ Ioc (at' gy j) (at' gy (j + 1))) := by
    rw [h4 i j hi hj, hcell]
    change |∫ y in at' gy j..at' gy (j + 1), ∫ x in at' gx i..at' gx (i + 1), (winding poly (x, y) : ℝ)| / _ = _
    congr 1
    rcases hs with hs | hs
    · rw [integral_simple hgi.le hgj.le poly 1 hs, Int.cast_one, one_mul, abs_of_nonneg measureReal_nonneg]
    · rw [integral_simple hgi.le hgj.le poly (-1) hs, Int.cast_neg, Int.cast_one, neg_one_mul, abs_neg,
        abs_of_nonneg measureReal_nonneg]
  refine ⟨hval, ?_, ?_⟩
  · rw [hval]
    exact div_nonneg measureReal_nonneg measureReal_nonneg
  · rw [hval]
    refine div_le_one_of_le₀ (measureReal_mono (fun z hz => hz.1) ?_) measureReal_nonneg
    rw [Measure.volume_eq_prod, Measure.prod_prod, Real.volume_Ioc, Real.volume_Ioc]
    exact ENNReal.mul_ne_top ENNReal.ofReal_ne_top ENNReal.ofReal_ne_top

/-- A triangle goes round each of its points once. -/
theorem triangle_winding (z : ℝ × ℝ) :
    winding [(0, 0), (1, 0), (0, 1)] z = 0 ∨ winding [(0, 0), (1, 0), (0, 1)] z = -1 := by
  obtain ⟨x, y⟩ := z
  have h0 : winding [(0, 0), (1, 0), (0, 1)] (x, y) =
      crossing (0, 0) (1, 0) (x, y) + (crossing (1, 0) (0, 1) (x, y) + (crossing (0, 1) (0, 0) (x, y) + 0)) := rfl
  have h1 : crossing (0, 0) (1, 0) (x, y) = 0 := by
    simp only [crossing]
    rw [if_neg (fun h => by linarith [h.1, h.2.1]), if_neg (fun h => by linarith [h.1, h.2.1])]
  rw [h0, h1]
  simp only [crossing, xAt]
  by_cases hy : 0 < y ∧ y ≤ 1
  · have hn : ¬ (1 < y) := not_lt.2 hy.2
    simp only [hy, hn, false_and, true_and, if_false]
    norm_num
    split_ifs with a b
    · exact Or.inl rfl
    · exact absurd (by linarith [hy.2] : 0 < x) b
    · exact Or.inr rfl
    · exact Or.inl rfl
  · have hn : ∀ P, ¬ (0 < y ∧ y ≤ 1 ∧ P) := fun P h => hy ⟨h.1, h.2.1⟩
    have hm : ∀ P, ¬ (1 < y ∧ y ≤ 0 ∧ P) := fun P h => by linarith [h.1, h.2.1]
    simp only [hn, hm, if_false]
    exact Or.inl rfl

/-- The hypotheses can be met: a triangle on a grid of four pixels, part of it outside. -/
example : PixelGrid [0, 1 / 4, 1 / 2] [-1, 1 / 2, 3 / 4] ∧ HasExtent [(0, 0), (1, 0), (0, 1)] ∧
    ((∀ z, winding [(0, 0), (1, 0), (0, 1)] z = 0 ∨ winding [(0, 0), (1, 0), (0, 1)] z = 1) ∨
      ∀ z, winding [(0, 0), (1, 0), (0, 1)] z = 0 ∨ winding [(0, 0), (1, 0), (0, 1)] z = -1) :=
  ⟨⟨by norm_num, by norm_num, by simp, by simp⟩,
    ⟨⟨(0, 0), by simp, (1, 0), by simp, by norm_num⟩, ⟨(0, 0), by simp, (0, 1), by simp, by norm_num⟩⟩,
    Or.inr triangle_winding⟩

/-- The image of the triangle, computed by the model. -/
example : raster2D [((0 : ℚ), 0), (1, 0), (0, 1)] [0, 1 / 4, 1 / 2] [-1, 1 / 2, 3 / 4] =
    .ok [[1 / 3, 1], [1 / 3, 1 / 2]] := by
  decide +kernel

/-! ### Where the polygon begins, and its direction -/

theorem winding_rotate (poly : List (ℝ × ℝ)) (k : Nat) (z : ℝ × ℝ) : winding (poly.rotate k) z = winding poly z := by
  unfold winding
  rw [List.rotate_rotate, Nat.add_comm, ← List.rotate_rotate, ← List.zipWith_rotate_distrib _ _ _ _ (by simp)]
  exact (List.rotate_perm _ k).sum_eq

theorem crossing_swap (p q z : ℝ × ℝ) : crossing q p z = - crossing p q z := by
  have hx : p.2 ≠ q.2 → xAt q p z.2 = xAt p q z.2 := by
    intro h
    have h1 : q.2 - p.2 ≠ 0 := sub_ne_zero.2 h.symm
    have h2 : p.2 - q.2 ≠ 0 := sub_ne_zero.2 h
    have h3 : p.2 - q.2 = -(q.2 - p.2) := by ring
    simp only [xAt]
    rw [h3]
    field_simp
    ring
  unfold crossing
  by_cases h1 : p.2 < z.2 ∧ z.2 ≤ q.2
  · have hne : p.2 ≠ q.2 := by intro h; linarith [h1.1, h1.2]
    have h2 : ¬ (q.2 < z.2) := not_lt.2 h1.2
    simp only [h1, h2, hx hne, false_and, if_false, true_and]
    split_ifs <;> simp
  · by_cases h2 : q.2 < z.2 ∧ z.2 ≤ p.2
    · have hne : p.2 ≠ q.2 := by intro h; linarith [h2.1, h2.2]
      have h3 : ¬ (p.2 < z.2) := not_lt.2 h2.2
      simp only [h2, h3, hx hne, false_and, if_false, true_and]
      split_ifs <;> simp
    · have e1 : ∀ P, ¬ (p.2 < z.2 ∧ z.2 ≤ q.2 ∧ P) := fun P h => h1 ⟨h.1, h.2.1⟩
      have e2 : ∀ P, ¬ (q.2 < z.2 ∧ z.2 ≤ p.2 ∧ P) := fun P h => h2 ⟨h.1, h.2.1⟩
      simp only [e1, e2, if_false, neg_zero]

theorem winding_reverse (poly : List (ℝ × ℝ)) (z : ℝ × ℝ) : winding poly.reverse z = - winding poly z := by
  have key : ∀ (l : List (ℝ × ℝ)) (m : List (ℝ × ℝ)), (List.zipWith (fun p q => crossing q p z) l m).sum =
      - (List.zipWith (fun p q => crossing p q z) l m).sum := by
    intro l
    induction l with
    | nil => simp
    | cons p l ih =>
      intro m
      cases m with
      | nil => simp
      | cons q m =>
        simp only [List.zipWith_cons_cons, List.sum_cons, ih, crossing_swap p q]
        ring
  rw [← winding_rotate poly.reverse (poly.length - 1)]
  unfold winding
  cases poly with
  | nil => simp
  | cons p l =>
    have h1 : ((p :: l).reverse.rotate ((p :: l).length - 1)).rotate 1 = (p :: l).reverse := by
      rw [List.rotate_rotate]
      have : (p :: l).length - 1 + 1 = (p :: l).reverse.length := by simp
      rw [this, List.rotate_length]
    have h2 : (p :: l).reverse.rotate ((p :: l).length - 1) = ((p :: l).rotate 1).reverse := by
      have : (p :: l).reverse = l.reverse ++ [p] := by simp
      rw [this]
      have hl : (p :: l).length - 1 = l.reverse.length := by simp
      rw [hl, List.rotate_append_length_eq]
      simp
    rw [h1, h2, List.zipWith_comm, ← List.reverse_zipWith]
    · rw [List.sum_reverse]
      exact key _ _
    · simp

/-- **C86.** The image depends neither on the vertex the polygon begins with nor on its direction. -/
theorem raster_order {gx gy : List ℝ} (hg : PixelGrid gx gy) (poly : List (ℝ × ℝ)) (hp : HasExtent poly) (k : Nat) :
    ∃ img, raster2D poly gx gy = .ok img ∧
      (∃ img', raster2D (poly.rotate k) gx gy = .ok img' ∧
        ∀ i j, i + 1 < gx.length → j + 1 < gy.length → pixel img' i j = pixel img i j) ∧
      ∃ img', raster2D poly.reverse gx gy = .ok img' ∧
        ∀ i j, i + 1 < gx.length → j + 1 < gy.length → pixel img' i j = pixel img i j := by
  obtain ⟨img, h1, _, _, h4⟩ := raster_exact hg poly hp
  have hrot : HasExtent (poly.rotate k) := by
    simpa only [HasExtent, List.mem_rotate] using hp
  have hrev : HasExtent poly.reverse := by
    simpa only [HasExtent, List.mem_reverse] using hp
  obtain ⟨im2, a1, _, _, a4⟩ := raster_exact hg _ hrot
  obtain ⟨im3, b1, _, _, b4⟩ := raster_exact hg _ hrev
  refine ⟨img, h1, ⟨im2, a1, fun i j hi hj => ?_⟩, ⟨im3, b1, fun i j hi hj => ?_⟩⟩
  · rw [a4 i j hi hj, h4 i j hi hj]
    simp only [winding_rotate]
  · rw [b4 i j hi hj, h4 i j hi hj]
    simp only [winding_reverse, Int.cast_neg, intervalIntegral.integral_neg, abs_neg]

/-! ### Rectangles -/

theorem covered_clip {s t c d : ℝ} (hst : s ≤ t) (hcd : c ≤ d) : covered s t c d = (clip t c d - clip s c d) / (d - c) := by
  unfold covered
  congr 1
  rcases le_total t c with h1 | h1
  · rw [clip_le hcd h1, clip_le hcd (le_trans hst h1), sub_self]
    apply max_eq_left
    linarith [min_le_left t d, le_max_right s c]
  · rcases le_total d s with h2 | h2
    · rw [clip_ge h2, clip_ge (le_trans h2 hst), sub_self]
      apply max_eq_left
      linarith [min_le_right t d, le_max_left s c]
    · have e1 : clip s c d = max s c := by rw [clip, min_eq_left (max_le h2 hcd)]
      have e2 : clip t c d = min t d := by rw [clip, max_eq_left h1]
      rw [e1, e2]
      apply max_eq_right
      linarith [max_le (le_min hst h2) (le_min h1 hcd)]

theorem clip_mono {s t c d : ℝ} (hst : s ≤ t) : clip s c d ≤ clip t c d :=
  min_le_min (max_le_max hst le_rfl) le_rfl

theorem edgeArea_horizontal (a b c d : ℝ) {p q : ℝ × ℝ} (h : p.2 = q.2) : edgeArea a b c d p q = 0 := by
  rw [edgeArea, h]
  simp

theorem edgeArea_vertical (a b c d : ℝ) {p q : ℝ × ℝ} (h : p.1 = q.1) :
    edgeArea a b c d p q = (clip q.2 c d - clip p.2 c d) * (b - clip p.1 a b) := by
  have : ∀ y, rightOf a b p q y = b - clip p.1 a b := by
    intro y
    simp [rightOf, xAt, h]
  rw [edgeArea]
  simp only [this, intervalIntegral.integral_const, smul_eq_mul]

/-- **C86.** The image of a rectangle with sides along the axes, as `Grid.draw_cuboid` gives it: the value of a pixel is the
product of the covered parts of its sides. -/
theorem raster_rectangle {gx gy : List ℝ} (hg : PixelGrid gx gy) {x0 x1 y0 y1 : ℝ} (hx : x0 < x1) (hy : y0 < y1) :
    ∃ img, raster2D [(x0, y1), (x1, y1), (x1, y0), (x0, y0)] gx gy = .ok img ∧
      ∀ i j, i + 1 < gx.length → j + 1 < gy.length →
        pixel img i j = covered x0 x1 (gx.getD i 0) (gx.getD (i + 1) 0) * covered y0 y1 (gy.getD j 0) (gy.getD (j + 1) 0) := by
  have hp : HasExtent [(x0, y1), (x1, y1), (x1, y0), (x0, y0)] :=
    ⟨⟨(x0, y1), by simp, (x1, y1), by simp, hx.ne⟩, ⟨(x0, y0), by simp, (x0, y1), by simp, hy.ne⟩⟩
  obtain ⟨img, h1, _, _, h4⟩ := raster_exact hg _ hp
  refine ⟨img, h1, fun i j hi hj => ?_⟩
  have hgi : at' gx i < at' gx (i + 1) := at'_lt hg.incX (Nat.lt_succ_self i) hi
  have hgj : at' gy j < at' gy (j + 1) := at'_lt hg.incY (Nat.lt_succ_self j) hj
  rw [h4 i j hi hj]
  change |∫ y in at' gy j..at' gy (j + 1), ∫ x in at' gx i..at' gx (i + 1), _| / _ =
    covered x0 x1 (at' gx i) (at' gx (i + 1)) * covered y0 y1 (at' gy j) (at' gy (j + 1))
  rw [integral_winding hgi.le hgj.le, covered_clip hx.le hgi.le, covered_clip hy.le hgj.le, div_mul_div_comm]
  congr 1
  have he : edges [(x0, y1), (x1, y1), (x1, y0), (x0, y0)] =
      [((x0, y1), (x1, y1)), ((x1, y1), (x1, y0)), ((x1, y0), (x0, y0)), ((x0, y0), (x0, y1))] := rfl
  rw [he]
  simp only [List.map_cons, List.map_nil, List.sum_cons, List.sum_nil]
  rw [edgeArea_horizontal _ _ _ _ (p := (x0, y1)) (q := (x1, y1)) rfl,
    edgeArea_vertical _ _ _ _ (p := (x1, y1)) (q := (x1, y0)) rfl,
    edgeArea_horizontal _ _ _ _ (p := (x1, y0)) (q := (x0, y0)) rfl,
    edgeArea_vertical _ _ _ _ (p := (x0, y0)) (q := (x0, y1)) rfl]
  simp only
  rw [← abs_of_nonneg (mul_nonneg (sub_nonneg.2 (clip_mono (c := at' gx i) (d := at' gx (i + 1)) hx.le))
    (sub_nonneg.2 (clip_mono (c := at' gy j) (d := at' gy (j + 1)) hy.le)))]
  congr 1
  ring

/-! ### The other polygons -/

/-- A polygon without width can be drawn although it covers nothing: this one, between the edges 0 and 3 of a grid with
pixels of side 1, gives the values 1/2, 3/2 and 1. -/
theorem raster_no_width_false :
    raster2D [((1 : ℚ) / 2, 0), (1 / 2, 3), (1 / 2, 1)] [0, 1] [0, 1, 2, 3] = .ok [[1 / 2, 3 / 2, 1]] := by
  decide +kernel

/-- A polygon that crosses itself: the two triangles of this one cover half of the pixel, but go round in different
directions, and the value is 0. One that goes round the pixel twice gives 2. -/
theorem raster_crossed_false :
    raster2D [((0 : ℚ), 0), (1, 1), (1, 0), (0, 1)] [0, 1] [0, 1] = .ok [[0]] ∧
    raster2D [((0 : ℚ), 0), (1, 0), (1, 1), (0, 1), (0, 0), (1, 0), (1, 1), (0, 1)] [0, 1] [0, 1] = .ok [[2]] := by
  decide +kernel

/-- The blank image of line 447 is not returned, since `zeros` is not defined: a polygon of which nothing is left raises
`NameError`. -/
theorem raster_blank_false : raster2D [((5 : ℚ), 5), (5, 5), (5, 5)] [0, 1] [0, 1] = .error .nameError := by
  decide +kernel

end Verif.Render.Polygon
