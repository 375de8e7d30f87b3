import Verif.Render.DrawLemmas
/-
C87: objects drawn on a grid. The value of each cell of each component is the average of the material over the cell.
-/
set_option linter.unusedVariables false
set_option linter.unusedSectionVars false
namespace Verif.Render.Draw

open Verif.Render Verif.Render.Polygon Set MeasureTheory

/-! ### Averages -/

section averages
variable {X : Type} [MeasurableSpace X] {μ : Measure X} {S : Set X}

/-- A function that can be integrated over a set, and its average. -/
def HasAvg (μ : Measure X) (S : Set X) (F : X → ℂ) (v : ℂ) : Prop := IntegrableOn F S μ ∧ ∫ q in S, F q ∂μ = μ.real S • v

theorem hasAvg_const (hS : μ S ≠ ⊤) (v : ℂ) : HasAvg μ S (fun _ => v) v :=
  ⟨integrableOn_const hS, by rw [setIntegral_const]⟩

theorem HasAvg.add {F G : X → ℂ} {v w : ℂ} (h1 : HasAvg μ S F v) (h2 : HasAvg μ S G w) :
    HasAvg μ S (fun q => F q + G q) (v + w) :=
  ⟨h1.1.add h2.1, by rw [integral_add h1.1 h2.1, h1.2, h2.2, smul_add]⟩

theorem hasAvg_list {A : Type} (l : List A) (F : A → X → ℂ) (v : A → ℂ) (h : ∀ a ∈ l, HasAvg μ S (F a) (v a)) :
    HasAvg μ S (fun q => (l.map fun a => F a q).sum) (l.map v).sum := by
  induction l with
  | nil =>
    refine ⟨?_, ?_⟩
    · simp
    · simp
  | cons a l ih =>
    simp only [List.map_cons, List.sum_cons]
    exact (h a List.mem_cons_self).add (ih fun b hb => h b (List.mem_cons_of_mem _ hb))

theorem HasAvg.average {F : X → ℂ} {v : ℂ} (h : HasAvg μ S F v) (h0 : μ.real S ≠ 0) : ⨍ q in S, F q ∂μ = v := by
  rw [setAverage_eq, h.2, inv_smul_smul₀ h0]

end averages

theorem integral_between {a b c d : ℝ} (hcd : c < d) :
    ∫ z in Ioc c d, (if a < z ∧ z < b then (1 : ℂ) else 0) = ((d - c) * covered a b c d : ℝ) := by
  have h1 : (fun z => if a < z ∧ z < b then (1 : ℂ) else 0) = (Ioo a b).indicator fun _ => (1 : ℂ) := by
    funext z
    simp only [indicator, mem_Ioo]
  rw [h1, setIntegral_indicator measurableSet_Ioo, setIntegral_const, measureReal_congr
    ((ae_eq_refl (Ioc c d)).inter Ioo_ae_eq_Ioc), Ioc_inter_Ioc, Real.volume_real_Ioc, covered]
  rw [mul_div_cancel₀ _ (by linarith), max_comm, max_comm a c, min_comm b d]
  simp

theorem insideOf_measurable (poly : List (ℝ × ℝ)) : MeasurableSet {z : ℝ × ℝ | insideOf poly z = true} := by
  have : {z : ℝ × ℝ | insideOf poly z = true} = (fun z => (winding poly z : ℝ)) ⁻¹' {0}ᶜ := by
    ext z
    simp [insideOf]
  rw [this]
  exact measurable_winding poly (measurableSet_singleton 0).compl

theorem integral_inside {poly : List (ℝ × ℝ)} (hp : Proper poly) {I J : ℝ × ℝ} (hI : I.1 < I.2) (hJ : J.1 < J.2) :
    ∫ x in Ioc I.1 I.2 ×ˢ Ioc J.1 J.2, (if insideOf poly x then (1 : ℂ) else 0) =
      ((I.2 - I.1) * (J.2 - J.1) * share poly I J : ℝ) := by
  have h1 : (fun x => if insideOf poly x then (1 : ℂ) else 0) = {z : ℝ × ℝ | insideOf poly z = true}.indicator fun _ => 1 := by
    funext z
    simp only [indicator, mem_ofPred_eq]
  rw [h1, setIntegral_indicator (insideOf_measurable poly), setIntegral_const]
  have h2 : Ioc I.1 I.2 ×ˢ Ioc J.1 J.2 ∩ {z : ℝ × ℝ | insideOf poly z = true} = inside poly I.1 I.2 J.1 J.2 := by
    ext z
    simp [inside, insideOf]
  have h3 : |∫ y in J.1..J.2, ∫ x in I.1..I.2, (winding poly (x, y) : ℝ)| = volume.real (inside poly I.1 I.2 J.1 J.2) := by
    rcases hp.once with hs | hs
    · rw [integral_simple hI.le hJ.le poly 1 hs, Int.cast_one, one_mul, abs_of_nonneg measureReal_nonneg]
    · rw [integral_simple hI.le hJ.le poly (-1) hs, Int.cast_neg, Int.cast_one, neg_one_mul, abs_neg,
        abs_of_nonneg measureReal_nonneg]
  rw [h2, share, h3, mul_div_cancel₀ _ (mul_ne_zero (by linarith) (by linarith))]
  simp

/-- The polygon `poly` between the heights `a` and `b`, with the value `v`, over a cell. -/
theorem hasAvg_polygon {poly : List (ℝ × ℝ)} (hp : Proper poly) {I J H : ℝ × ℝ} (hI : I.1 < I.2) (hJ : J.1 < J.2)
    (hH : H.1 < H.2) (a b : ℝ) (v : ℂ) :
    HasAvg volume ((Ioc I.1 I.2 ×ˢ Ioc J.1 J.2) ×ˢ Ioc H.1 H.2)
      (fun q : (ℝ × ℝ) × ℝ => (if a < q.2 ∧ q.2 < b then (1 : ℝ) else 0) • (if insideOf poly q.1 then (1 : ℝ) else 0) • v)
      (covered a b H.1 H.2 • share poly I J • v) := by
  have hvol : (volume : Measure ((ℝ × ℝ) × ℝ)).real ((Ioc I.1 I.2 ×ˢ Ioc J.1 J.2) ×ˢ Ioc H.1 H.2) =
      (I.2 - I.1) * (J.2 - J.1) * (H.2 - H.1) := by
    rw [Measure.volume_eq_prod, measureReal_prod_prod, Measure.volume_eq_prod, measureReal_prod_prod,
      Real.volume_real_Ioc_of_le hI.le, Real.volume_real_Ioc_of_le hJ.le, Real.volume_real_Ioc_of_le hH.le]
  have hF : (fun q : (ℝ × ℝ) × ℝ => (if a < q.2 ∧ q.2 < b then (1 : ℝ) else 0) •
      (if insideOf poly q.1 then (1 : ℝ) else 0) • v) = fun q =>
      ((if insideOf poly q.1 then (1 : ℂ) else 0) * (if a < q.2 ∧ q.2 < b then (1 : ℂ) else 0)) * v := by
    funext q
    by_cases h1 : a < q.2 ∧ q.2 < b <;> by_cases h2 : insideOf poly q.1 = true <;> simp [h1, h2]
  rw [hF]
  refine ⟨?_, ?_⟩
  · refine Measure.integrableOn_of_bounded (M := ‖v‖) ?_ ?_ (Filter.Eventually.of_forall fun q => ?_)
    · rw [Measure.volume_eq_prod, Measure.prod_prod, Measure.volume_eq_prod, Measure.prod_prod]
      simp only [Real.volume_Ioc]
      exact ENNReal.mul_ne_top (ENNReal.mul_ne_top ENNReal.ofReal_ne_top ENNReal.ofReal_ne_top) ENNReal.ofReal_ne_top
    · refine Measurable.aestronglyMeasurable ?_
      refine Measurable.mul (Measurable.mul ?_ ?_) measurable_const
      · exact Measurable.ite (measurable_fst (insideOf_measurable poly)) measurable_const measurable_const
      · refine Measurable.ite ?_ measurable_const measurable_const
        exact (measurableSet_lt measurable_const measurable_snd).inter (measurableSet_lt measurable_snd measurable_const)
    · by_cases h1 : a < q.2 ∧ q.2 < b <;> by_cases h2 : insideOf poly q.1 = true <;> simp [h1, h2]
  · rw [integral_mul_const, hvol, Measure.volume_eq_prod,
      setIntegral_prod_mul (fun x : ℝ × ℝ => if insideOf poly x then (1 : ℂ) else 0)
        (fun z : ℝ => if a < z ∧ z < b then (1 : ℂ) else 0), integral_inside hp hI hJ, integral_between hH]
    simp only [Complex.real_smul]
    push_cast
    ring

/-! ### The result of `render` -/

variable {R : Type}

/-- What is asked of gdspy about a point: a point of `p` outside of `q` is in exactly one of the polygons of the difference,
other points are in none. -/
def DiffRight (outline : R → List (ℝ × ℝ)) (diff : R → R → List R) (x : ℝ × ℝ) : Prop :=
  ∀ p q, ((diff p q).filter fun r => insideOf (outline r) x).length =
    if insideOf (outline p) x ∧ insideOf (outline q) x = false then 1 else 0

/-- The difference of polygons with the test of the boxes. -/
noncomputable def polygons (outline : R → List (ℝ × ℝ)) (diff : R → R → List R) : Polygons R :=
  ⟨diff, fun p q => apartBox (outline p) (outline q)⟩

theorem inside_box {u : ℝ × ℝ} {l : List (ℝ × ℝ)} {x : ℝ × ℝ} (h : insideOf (u :: l) x = true) :
    lowest u.1 (l.map Prod.fst) < x.1 ∧ x.1 ≤ highest u.1 (l.map Prod.fst) ∧ lowest u.2 (l.map Prod.snd) < x.2 ∧
      x.2 ≤ highest u.2 (l.map Prod.snd) := by
  have hw : (winding (u :: l) x : ℝ) ≠ 0 := by
    have := of_decide_eq_true h
    exact_mod_cast this
  have hb := box_mem u l
  refine ⟨?_, ?_, ?_, ?_⟩ <;> by_contra hc
  · exact hw (winding_outside hb (Or.inl (not_lt.1 hc)))
  · exact hw (winding_outside hb (Or.inr (Or.inl (not_le.1 hc))))
  · exact hw (winding_outside hb (Or.inr (Or.inr (Or.inl (not_lt.1 hc)))))
  · exact hw (winding_outside hb (Or.inr (Or.inr (Or.inr (not_le.1 hc)))))

/-- Polygons with separate boxes have no point in common, whatever the second comparisons of `check_bounding_box` say. -/
theorem apartBox_right (p q : List (ℝ × ℝ)) (h : apartBox p q = true) (x : ℝ × ℝ) :
    ¬ (insideOf p x = true ∧ insideOf q x = true) := by
  rintro ⟨h1, h2⟩
  cases p with
  | nil => simp [apartBox] at h
  | cons u l =>
    cases q with
    | nil => simp [apartBox] at h
    | cons v m =>
      obtain ⟨a1, a2, a3, a4⟩ := inside_box h1
      obtain ⟨b1, b2, b3, b4⟩ := inside_box h2
      simp only [apartBox] at h
      split_ifs at h with c1 c2
      · rcases c1 with c | c <;> linarith
      · rcases c2 with c | c <;> linarith

theorem polygons_right {outline : R → List (ℝ × ℝ)} {diff : R → R → List R} {x : ℝ × ℝ} (h : DiffRight outline diff x) :
    RightAt (polygons outline diff) (fun r x => insideOf (outline r) x) x :=
  ⟨h, fun p q hpq => apartBox_right _ _ hpq x⟩

/-- The heights of all shapes are integers, or the cells along the extrusion axis are at least two units thick. -/
def HeightsHarmless {E : Type} (g : Grid3 ℝ) (l : List (Drawn ℝ R E)) : Prop :=
  (∀ s ∈ l, (∃ i : ℤ, s.z0 = i) ∧ ∃ i : ℤ, s.z1 = i) ∨
    ∀ i, i + 1 < (g.exyz g.ext).length → 2 ≤ (g.exyz g.ext).getD (i + 1) 0 - (g.exyz g.ext).getD i 0

theorem layer_harmless {E : Type} {g : Grid3 ℝ} {l : List (Drawn ℝ R E)} (h : HeightsHarmless g l) (k : Nat)
    (hk : k + 1 < (layerZ l).length) :
    RoundingHarmless (g.exyz g.ext) (at' (layerZ l) k) (at' (layerZ l) (k + 1)) := by
  rcases h with h | h
  · left
    have key : ∀ z ∈ layerZ l, ∃ i : ℤ, z = i := by
      intro z hz
      unfold layerZ at hz
      have hz := List.mem_dedup.1 ((List.perm_insertionSort _ _).mem_iff.1 hz)
      obtain ⟨s, hs, hz⟩ := List.mem_flatMap.1 hz
      simp only [List.mem_cons, List.not_mem_nil, or_false] at hz
      rcases hz with rfl | rfl
      · exact (h s hs).1
      · exact (h s hs).2
    rw [at'_eq _ _ (by omega), at'_eq _ _ hk]
    exact ⟨key _ (List.getElem_mem _), key _ (List.getElem_mem _)⟩
  · exact Or.inr h

/-- Rendering the cells of the whole grid is rendering each cell with the covered parts of it. -/
theorem render3_cells {E : Type} [AddCommGroup E] [Module ℝ E] {g : Grid3 ℝ} (hg : YeeGrid g) (gd : Polygons R)
    (outline : R → List (ℝ × ℝ)) (bg : (Fin 3 → Nat) → E) (n : Fin 3) (l : List (Drawn ℝ R (Fin 3 → E)))
    (hh : HeightsHarmless g l)
    (hp : ∀ ps ∈ (computeLayers l).map (reduceLayer gd), ∀ p ∈ ps, 3 ≤ (outline p.1).length ∧ HasExtent (outline p.1)) :
    ∃ v, render3 g gd outline bg n false l = .ok v ∧ ∀ c, OnGrid g c → v c =
      renderCell gd (fun r => share (outline r) (side g n c (planar g.ext).1) (side g n c (planar g.ext).2))
        (fun a b => covered a b (side g n c g.ext).1 (side g n c g.ext).2) (fun _ => bg c) false l n := by
  obtain ⟨f, hf, hv⟩ := renderLayers3_spec hg n outline (layerZ l) (layerZ_increasing l) (layer_harmless hh)
    ((computeLayers l).map (reduceLayer gd)) hp 0 (by
      rw [List.length_map, computeLayers_length]
      by_cases h : 1 ≤ (layerZ l).length - 1
      · left
        omega
      · right
        rw [← List.length_eq_zero_iff, List.length_map, computeLayers_length]
        omega) (fun _ => (0, 1))
  refine ⟨fun c => (f c).1 + (f c).2 • bg c, by simp only [render3, Bool.false_eq_true, if_false, hf], fun c hc => ?_⟩
  have := hv c hc (0, 1) rfl
  simp only [renderCell, Bool.false_eq_true, if_false]
  rw [this]
  rfl

theorem gain_apply {E : Type} [AddCommGroup E] [Module ℝ E] (raster : R → ℝ) (w : ℝ) (bg : Fin 3 → E) (n : Fin 3)
    (l : List (R × (Fin 3 → E))) :
    (w • gain raster bg l) n = (l.map fun p => w • raster p.1 • (p.2 n - bg n)).sum := by
  induction l with
  | nil => simp [gain]
  | cons p l ih =>
    have : gain raster bg (p :: l) = raster p.1 • (p.2 - bg) + gain raster bg l := by simp [gain]
    rw [this, smul_add, Pi.add_apply, ih]
    simp

theorem renderCell_apply {E : Type} [AddCommGroup E] [Module ℝ E] (gd : Polygons R) (raster : R → ℝ) (wz : ℝ → ℝ → ℝ)
    (bg : Fin 3 → E) (l : List (Drawn ℝ R (Fin 3 → E))) (n : Fin 3) :
    renderCell gd raster wz bg false l n = bg n + ((List.range ((layerZ l).length - 1)).map fun k =>
      ((((computeLayers l).map (reduceLayer gd)).getD k []).map fun p =>
        wz (at' (layerZ l) k) (at' (layerZ l) (k + 1)) • raster p.1 • (p.2 n - bg n)).sum).sum := by
  rw [renderCell_eq, Pi.add_apply]
  congr 1
  generalize List.range ((layerZ l).length - 1) = m
  induction m with
  | nil => simp
  | cons k m ih => rw [List.map_cons, List.sum_cons, Pi.add_apply, ih, gain_apply, List.map_cons, List.sum_cons]

theorem planar_eq (x : Fin 3) : planar x = planeAxes x := by fin_cases x <;> rfl

theorem crossing_moved (p q z m : ℝ × ℝ) :
    crossing (p.1 + m.1, p.2 + m.2) (q.1 + m.1, q.2 + m.2) z = crossing p q (z.1 - m.1, z.2 - m.2) := by
  have h1 : ∀ a : ℝ, (a + m.2 < z.2) = (a < z.2 - m.2) := fun a => propext ⟨fun h => by linarith, fun h => by linarith⟩
  have h2 : ∀ a : ℝ, (z.2 ≤ a + m.2) = (z.2 - m.2 ≤ a) := fun a => propext ⟨fun h => by linarith, fun h => by linarith⟩
  have h3 : (xAt (p.1 + m.1, p.2 + m.2) (q.1 + m.1, q.2 + m.2) z.2 < z.1) = (xAt p q (z.2 - m.2) < z.1 - m.1) := by
    have : xAt (p.1 + m.1, p.2 + m.2) (q.1 + m.1, q.2 + m.2) z.2 = xAt p q (z.2 - m.2) + m.1 := by
      simp only [xAt]
      rw [show q.2 + m.2 - (p.2 + m.2) = q.2 - p.2 by ring, show z.2 - (p.2 + m.2) = z.2 - m.2 - p.2 by ring,
        show q.1 + m.1 - (p.1 + m.1) = q.1 - p.1 by ring]
      ring
    rw [this]
    exact propext ⟨fun h => by linarith, fun h => by linarith⟩
  simp only [crossing, h1, h2, h3]

theorem winding_moved (poly : List (ℝ × ℝ)) (m z : ℝ × ℝ) :
    winding (poly.map fun p => (p.1 + m.1, p.2 + m.2)) z = winding poly (z.1 - m.1, z.2 - m.2) := by
  rw [winding, winding, ← List.map_rotate, List.zipWith_map]
  simp only [crossing_moved]

/-- **C87.** Drawing a polygon: it is refused with less than three points or without a thickness. Otherwise one object is
added at the end: the points inside of it are those inside of the polygon once moved by the centre, and it goes from half
the thickness below the centre to half the thickness above it. -/
theorem polygon_drawn {E : Type} (g : Grid3 ℝ) (list : List (Drawn ℝ (List (ℝ × ℝ)) E)) (ctr : Fin 3 → ℝ)
    (poly : List (ℝ × ℝ)) (thickness : ℝ) (eps : E) :
    (poly.length < 3 ∨ thickness ≤ 0 → drawPolygon3 g list ctr poly thickness eps = .error .gridError) ∧
    (3 ≤ poly.length → 0 < thickness → ∃ new, drawPolygon3 g list ctr poly thickness eps = .ok (list ++ [new]) ∧
      (∀ u v, insideOf new.region (u, v) = insideOf poly (u - ctr (planeAxes g.ext).1, v - ctr (planeAxes g.ext).2)) ∧
      new.z0 = ctr g.ext - thickness / 2 ∧ new.z1 = ctr g.ext + thickness / 2 ∧ new.eps = eps) := by
  constructor
  · intro h
    simp only [drawPolygon3, drawPolygon]
    by_cases hp : poly.length ≤ 2
    · simp [hp]
    · rcases h with h | h
      · omega
      · simp [hp, h]
  · intro hp ht
    refine ⟨⟨poly.map fun p => (p.1 + ctr (planar g.ext).1, p.2 + ctr (planar g.ext).2), ctr g.ext - 1 / 2 * thickness,
      ctr g.ext + 1 / 2 * thickness, eps⟩,
      by simp only [drawPolygon3, drawPolygon, if_neg (show ¬ poly.length ≤ 2 by omega), if_neg (not_le.2 ht)],
      fun u v => ?_, ?_, ?_, rfl⟩
    · simp only [insideOf, planar_eq]
      rw [winding_moved poly (ctr (planeAxes g.ext).1, ctr (planeAxes g.ext).2) (u, v)]
    · show _ - _ = _; ring
    · show _ + _ = _; ring

/-- **C87.** Objects drawn on a grid. For every Yee grid, every list of drawn polygons, each component and each cell,
`render` gives the average over the cell of the permittivity of the last drawn object around each point, with the
background where there is none. gdspy is taken to be right about almost every point. Missing: heights which are not
integers on grids with cells thinner than two units, see `render_thin_false`. -/
theorem render_average_partial {g : Grid3 ℝ} (hg : YeeGrid g) (outline : R → List (ℝ × ℝ)) (ho : ∀ r, Proper (outline r))
    (diff : R → R → List R) (hd : ∀ᵐ x : ℝ × ℝ, DiffRight outline diff x) (bg : (Fin 3 → Nat) → ℂ) (n : Fin 3)
    (l : List (Drawn ℝ R (Fin 3 → ℂ))) (hh : HeightsHarmless g l) :
    ∃ v, render3 g (polygons outline diff) outline bg n false l = .ok v ∧ ∀ c, OnGrid g c →
      v c = ⨍ q in cell g n c, materialAt (fun r x => insideOf (outline r) x) (fun _ => bg c) l q.1 q.2 n := by
  obtain ⟨v, hv, hc⟩ := render3_cells hg (polygons outline diff) outline bg n l hh fun ps _ p _ =>
    ⟨(ho p.1).points, (ho p.1).width, (ho p.1).height⟩
  refine ⟨v, hv, fun c hcg => ?_⟩
  rw [hc c hcg]
  simp only [planar_eq]
  have hI := side_lt hg n c hcg (planeAxes g.ext).1
  have hJ := side_lt hg n c hcg (planeAxes g.ext).2
  have hH := side_lt hg n c hcg g.ext
  -- almost everywhere the material is a sum over layers and polygons
  have hae : ∀ᵐ q : (ℝ × ℝ) × ℝ, materialAt (fun r x => insideOf (outline r) x) (fun _ => bg c) l q.1 q.2 n =
      bg c + ((List.range ((layerZ l).length - 1)).map fun k =>
        ((((computeLayers l).map (reduceLayer (polygons outline diff))).getD k []).map fun p =>
          (if at' (layerZ l) k < q.2 ∧ q.2 < at' (layerZ l) (k + 1) then (1 : ℝ) else 0) •
            (if insideOf (outline p.1) q.1 then (1 : ℝ) else 0) • (p.2 n - bg c)).sum).sum := by
    have h1 : ∀ᵐ q : (ℝ × ℝ) × ℝ, DiffRight outline diff q.1 :=
      Measure.quasiMeasurePreserving_fst.ae hd
    have h2 : ∀ᵐ q : (ℝ × ℝ) × ℝ, q.2 ∉ layerZ l := by
      refine Measure.quasiMeasurePreserving_snd.ae (p := fun z : ℝ => z ∉ layerZ l) ?_
      have hfin : {z : ℝ | z ∈ layerZ l}.Finite := List.finite_toSet (layerZ l)
      rw [ae_iff]
      simpa using hfin.measure_zero volume
    filter_upwards [h1, h2] with q hq1 hq2
    rw [← point_value (polygons_right hq1) (fun _ => bg c) l q.2 hq2, renderCell_apply]
  have havg : HasAvg volume (cell g n c) (fun q => bg c + ((List.range ((layerZ l).length - 1)).map fun k =>
        ((((computeLayers l).map (reduceLayer (polygons outline diff))).getD k []).map fun p =>
          (if at' (layerZ l) k < q.2 ∧ q.2 < at' (layerZ l) (k + 1) then (1 : ℝ) else 0) •
            (if insideOf (outline p.1) q.1 then (1 : ℝ) else 0) • (p.2 n - bg c)).sum).sum)
      (bg c + ((List.range ((layerZ l).length - 1)).map fun k =>
        ((((computeLayers l).map (reduceLayer (polygons outline diff))).getD k []).map fun p =>
          covered (at' (layerZ l) k) (at' (layerZ l) (k + 1)) (side g n c g.ext).1 (side g n c g.ext).2 •
            share (outline p.1) (side g n c (planeAxes g.ext).1) (side g n c (planeAxes g.ext).2) • (p.2 n - bg c)).sum).sum) := by
    refine HasAvg.add (hasAvg_const ?_ _) ?_
    · rw [cell, Measure.volume_eq_prod, Measure.prod_prod, Measure.volume_eq_prod, Measure.prod_prod]
      simp only [Real.volume_Ioc]
      exact ENNReal.mul_ne_top (ENNReal.mul_ne_top ENNReal.ofReal_ne_top ENNReal.ofReal_ne_top) ENNReal.ofReal_ne_top
    · refine hasAvg_list _ _ _ fun k _ => hasAvg_list _ _ _ fun p _ => ?_
      exact hasAvg_polygon (ho p.1) hI hJ hH _ _ _
  have hvol : (volume : Measure ((ℝ × ℝ) × ℝ)).real (cell g n c) ≠ 0 := by
    rw [cell, Measure.volume_eq_prod, measureReal_prod_prod, Measure.volume_eq_prod, measureReal_prod_prod,
      Real.volume_real_Ioc_of_le hI.le, Real.volume_real_Ioc_of_le hJ.le, Real.volume_real_Ioc_of_le hH.le]
    exact mul_ne_zero (mul_ne_zero (sub_pos.2 hI).ne' (sub_pos.2 hJ).ne') (sub_pos.2 hH).ne'
  have hms : MeasurableSet (cell g n c) := (measurableSet_Ioc.prod measurableSet_Ioc).prod measurableSet_Ioc
  rw [setAverage_congr_fun hms (hae.mono fun q h _ => h), havg.average hvol, renderCell_apply]

end Verif.Render.Draw
