import Verif.Far.MeshSelect
import Mathlib.MeasureTheory.Measure.Lebesgue.VolumeOfBalls
import Mathlib.Analysis.Convex.Measure
import Mathlib.MeasureTheory.Measure.Lebesgue.EqHaar
/-
Property C95: the areas of the triangles add up to that of the sphere.

The tetrahedra between the origin and the triangles are compared with balls, by their volumes.
-/
namespace Verif.Far
set_option linter.unusedVariables false
open MeasureTheory

/-- The standard simplex, open and closed. -/
def simplexO : Set V3 := {y | 0 < y 0 ∧ 0 < y 1 ∧ 0 < y 2 ∧ y 0 + y 1 + y 2 < 1}
def simplexC : Set V3 := {y | 0 ≤ y 0 ∧ 0 ≤ y 1 ∧ 0 ≤ y 2 ∧ y 0 + y 1 + y 2 ≤ 1}

/-- The linear map that takes the axes to the corners. -/
noncomputable def toCorners (t : Corners) : V3 →ₗ[ℝ] V3 := Matrix.toLin' (Matrix.of fun i j => (![t.1, t.2.1, t.2.2] : Fin 3 → V3) j i)

theorem toCorners_apply (t : Corners) (y : V3) : toCorners t y = comb (y 0) (y 1) (y 2) t := by
  funext i
  rw [toCorners, Matrix.toLin'_apply, Matrix.mulVec, dotProduct, Fin.sum_univ_three]
  simp only [Matrix.of_apply, comb, Matrix.cons_val_zero, Matrix.cons_val_one, Matrix.cons_val]
  ring

theorem toCorners_det (t : Corners) : LinearMap.det (toCorners t) = det t.1 t.2.1 t.2.2 := by
  rw [toCorners, LinearMap.det_toLin', Matrix.det_fin_three, det]
  simp only [Matrix.of_apply, Matrix.cons_val_zero, Matrix.cons_val_one, Matrix.cons_val]
  ring

/-- The tetrahedra between the origin and a triangle. -/
noncomputable def tetraO (t : Corners) : Set V3 := toCorners t '' simplexO
noncomputable def tetraC (t : Corners) : Set V3 := toCorners t '' simplexC

theorem simplexO_convex : Convex ℝ simplexO := by
  rintro x ⟨x0, x1, x2, x3⟩ y ⟨y0, y1, y2, y3⟩ a b ha hb hab
  have key : ∀ p q : ℝ, 0 < p → 0 < q → 0 < a * p + b * q := by
    intro p q hp hq
    rcases ha.eq_or_lt with h | h
    · have : b = 1 := by linarith
      rw [← h, this]; linarith
    · have := mul_pos h hp
      have := mul_nonneg hb hq.le
      linarith
  refine ⟨key _ _ x0 y0, key _ _ x1 y1, key _ _ x2 y2, ?_⟩
  have := key (1 - (x 0 + x 1 + x 2)) (1 - (y 0 + y 1 + y 2)) (by linarith) (by linarith)
  simp only [Pi.add_apply, Pi.smul_apply, smul_eq_mul]
  linarith

theorem simplexO_open : IsOpen simplexO := by
  have h3 : IsOpen {y : V3 | y 0 + y 1 + y 2 < 1} :=
    isOpen_lt (((continuous_apply 0).add (continuous_apply 1)).add (continuous_apply 2)) continuous_const
  have h0 : ∀ i, IsOpen {y : V3 | 0 < y i} := fun i => isOpen_lt continuous_const (continuous_apply i)
  exact (h0 0).inter ((h0 1).inter ((h0 2).inter h3))

theorem simplexC_closure : simplexC ⊆ closure simplexO := by
  rintro y ⟨y0, y1, y2, y3⟩
  have ht : Filter.Tendsto (fun s : ℝ => (fun i => (1 - s) * y i + s * (1 / 4) : V3)) (nhdsWithin 0 (Set.Ioo 0 1)) (nhds y) := by
    have hc : Continuous (fun s : ℝ => (fun i => (1 - s) * y i + s * (1 / 4) : V3)) := by fun_prop
    have h0 : (fun i => (1 - (0 : ℝ)) * y i + 0 * (1 / 4) : V3) = y := by funext i; ring
    have := hc.tendsto 0
    rw [h0] at this
    exact this.mono_left nhdsWithin_le_nhds
  have hne : (nhdsWithin (0 : ℝ) (Set.Ioo 0 1)).NeBot := by
    rw [← mem_closure_iff_nhdsWithin_neBot, closure_Ioo (by norm_num)]
    exact ⟨le_refl _, by norm_num⟩
  refine mem_closure_of_tendsto ht (Filter.mem_of_superset self_mem_nhdsWithin ?_)
  rintro s ⟨s0, s1⟩
  have key : ∀ p : ℝ, 0 ≤ p → 0 < (1 - s) * p + s * (1 / 4) := fun p hp => by
    have := mul_nonneg (by linarith : 0 ≤ 1 - s) hp
    linarith
  refine ⟨key _ y0, key _ y1, key _ y2, ?_⟩
  show (1 - s) * y 0 + s * (1 / 4) + ((1 - s) * y 1 + s * (1 / 4)) + ((1 - s) * y 2 + s * (1 / 4)) < 1
  nlinarith

theorem simplex_volume : volume simplexC = volume simplexO := by
  refine le_antisymm ?_ (measure_mono fun y hy => ⟨hy.1.le, hy.2.1.le, hy.2.2.1.le, hy.2.2.2.le⟩)
  calc volume simplexC ≤ volume (closure simplexO) := measure_mono simplexC_closure
    _ ≤ volume (simplexO ∪ frontier simplexO) := by
        refine measure_mono ?_
        rw [closure_eq_self_union_frontier]
    _ ≤ volume simplexO + volume (frontier simplexO) := measure_union_le _ _
    _ = volume simplexO := by rw [simplexO_convex.addHaar_frontier volume, add_zero]

theorem tetraO_volume (t : Corners) : volume (tetraO t) = ENNReal.ofReal |det t.1 t.2.1 t.2.2| * volume simplexO := by
  rw [tetraO, Measure.addHaar_image_linearMap, toCorners_det]

theorem tetraC_volume (t : Corners) : volume (tetraC t) = ENNReal.ofReal |det t.1 t.2.1 t.2.2| * volume simplexO := by
  rw [tetraC, Measure.addHaar_image_linearMap, toCorners_det, simplex_volume]

theorem tetraO_inside {t : Corners} {x : V3} (h : x ∈ tetraO t) : Inside t x := by
  obtain ⟨y, ⟨y0, y1, y2, _⟩, rfl⟩ := h
  exact ⟨y 0, y 1, y 2, y0, y1, y2, toCorners_apply t y⟩

theorem tetra_sum_le : ∀ (l : List Corners) (A : Set V3), l.Pairwise Apart → (∀ t ∈ l, tetraO t ⊆ A) →
    (l.map fun t => volume (tetraO t)).sum ≤ volume A := by
  intro l
  induction l with
  | nil => intro A _ _; simp
  | cons t l ih =>
    intro A hp hA
    rw [List.pairwise_cons] at hp
    have hm : NullMeasurableSet (tetraO t) volume := (simplexO_convex.linear_image (toCorners t)).nullMeasurableSet volume
    have h1 := ih (A \ tetraO t) hp.2 fun s hs x hx => ⟨hA s (List.mem_cons_of_mem _ hs) hx, fun hx' =>
      hp.1 s hs x ⟨tetraO_inside hx', tetraO_inside hx⟩⟩
    rw [List.map_cons, List.sum_cons, ← measure_inter_add_sdiff₀ A hm, Set.inter_eq_self_of_subset_right (hA t List.mem_cons_self)]
    exact add_le_add le_rfl h1

theorem tetra_sum_ge : ∀ (l : List Corners) (B : Set V3), (∀ x ∈ B, ∃ t ∈ l, x ∈ tetraC t) →
    volume B ≤ (l.map fun t => volume (tetraC t)).sum := by
  intro l
  induction l with
  | nil =>
    intro B hB
    have : B = ∅ := Set.eq_empty_iff_forall_notMem.2 fun x hx => by
      obtain ⟨t, ht, _⟩ := hB x hx
      exact absurd ht List.not_mem_nil
    rw [this]; simp
  | cons t l ih =>
    intro B hB
    have h1 := ih (B \ tetraC t) fun x hx => by
      obtain ⟨s, hs, hxs⟩ := hB x hx.1
      rcases List.mem_cons.1 hs with rfl | hs
      · exact absurd hxs hx.2
      · exact ⟨s, hs, hxs⟩
    rw [List.map_cons, List.sum_cons]
    calc volume B ≤ volume (B ∩ tetraC t) + volume (B \ tetraC t) := measure_le_inter_add_sdiff _ _ _
      _ ≤ volume (tetraC t) + (l.map fun t => volume (tetraC t)).sum := add_le_add (measure_mono Set.inter_subset_right) h1

/-- The sum of the determinants of the triangles. -/
noncomputable def detSum (l : List Corners) : ℝ := (l.map fun t => |det t.1 t.2.1 t.2.2|).sum

theorem detSum_nonneg (l : List Corners) : 0 ≤ detSum l :=
  List.sum_nonneg (by intro x hx; obtain ⟨t, _, rfl⟩ := List.mem_map.1 hx; exact abs_nonneg _)

theorem sum_volume (l : List Corners) (k : ENNReal) :
    (l.map fun t => ENNReal.ofReal |det t.1 t.2.1 t.2.2| * k).sum = ENNReal.ofReal (detSum l) * k := by
  induction l with
  | nil => simp [detSum]
  | cons t l ih =>
    rw [List.map_cons, List.sum_cons, ih, ← add_mul, ← ENNReal.ofReal_add (abs_nonneg _) (detSum_nonneg l)]
    rfl

theorem octahedron_comb {t : Corners} (ht : t ∈ octahedron.corners) {u v w : ℝ} (hu : 0 ≤ u) (hv : 0 ≤ v) (hw : 0 ≤ w) :
    |comb u v w t 0| + |comb u v w t 1| + |comb u v w t 2| = u + v + w ∧ |det t.1 t.2.1 t.2.2| = 1 := by
  rw [octahedron_corners, pyramid_corners, pyramid_corners] at ht
  simp only [List.mem_append, List.mem_cons, List.not_mem_nil, or_false] at ht
  rcases ht with (rfl | rfl | rfl | rfl) | (rfl | rfl | rfl | rfl) <;>
    · refine ⟨?_, by simp [det]⟩
      simp [comb, abs_of_nonneg hu, abs_of_nonneg hv, abs_of_nonneg hw]
      try ring1

theorem octahedron_volume : volume {x : V3 | |x 0| + |x 1| + |x 2| < 1} = ENNReal.ofReal (8 / 6) := by
  have h := MeasureTheory.volume_sum_rpow_lt_one (Fin 3) (p := 1) le_rfl
  simp only [Real.rpow_one, Fin.sum_univ_three, Fintype.card_fin] at h
  rw [h]
  congr 1
  have g2 : Real.Gamma (1 / 1 + 1) = 1 := by
    have := Real.Gamma_nat_eq_factorial 1
    norm_num at this ⊢
  have g4 : Real.Gamma (((3 : ℕ) : ℝ) / 1 + 1) = 6 := by
    have := Real.Gamma_nat_eq_factorial 3
    norm_num [Nat.factorial] at this ⊢
  rw [g2, g4]
  norm_num

theorem simplex_sixth : volume simplexO = ENNReal.ofReal (1 / 6) := by
  have hdet : detSum octahedron.corners = 8 := by
    have : octahedron.corners.map (fun t => |det t.1 t.2.1 t.2.2|) = octahedron.corners.map fun _ => 1 :=
      List.map_congr_left fun t ht => (octahedron_comb ht (le_refl 0) (le_refl 0) (le_refl 0)).2
    rw [detSum, this]
    simp [Mesh.corners, octahedron]
    norm_num
  have h1 := tetra_sum_le octahedron.corners {x : V3 | |x 0| + |x 1| + |x 2| < 1} octahedron_tile.apart fun t ht x hx => by
    obtain ⟨y, ⟨y0, y1, y2, y3⟩, rfl⟩ := hx
    show |toCorners t y 0| + |toCorners t y 1| + |toCorners t y 2| < 1
    rw [toCorners_apply, (octahedron_comb ht y0.le y1.le y2.le).1]
    exact y3
  have h2 := tetra_sum_ge octahedron.corners {x : V3 | |x 0| + |x 1| + |x 2| < 1} fun x hx => by
    obtain ⟨t, ht, u, v, w, hu, hv, hw, rfl⟩ := octahedron_tile.cover x trivial
    refine ⟨t, ht, ![u, v, w], ⟨hu, hv, hw, ?_⟩, by rw [toCorners_apply]; rfl⟩
    have hx' : |comb u v w t 0| + |comb u v w t 1| + |comb u v w t 2| < 1 := hx
    rw [(octahedron_comb ht hu hv hw).1] at hx'
    exact hx'.le
  simp only [tetraO_volume] at h1
  simp only [tetraC_volume] at h2
  rw [sum_volume, hdet, octahedron_volume] at h1 h2
  have h3 : ENNReal.ofReal 8 * volume simplexO = ENNReal.ofReal 8 * ENNReal.ofReal (1 / 6) := by
    rw [← ENNReal.ofReal_mul (by norm_num)]
    exact (le_antisymm h1 h2).trans (by norm_num)
  have h8 : ENNReal.ofReal 8 ≠ 0 := by simp
  exact (ENNReal.mul_right_inj h8 ENNReal.ofReal_ne_top).1 h3

/-- The ball of radius `r`. -/
def ballOf (r : ℝ) : Set V3 := {x | Real.sqrt (dot x x) < r}

theorem ball_volume (r : ℝ) : volume (ballOf r) = ENNReal.ofReal r ^ 3 * ENNReal.ofReal (4 / 3 * Real.pi) := by
  have h := MeasureTheory.volume_sum_rpow_lt (Fin 3) (p := 2) (by norm_num) r
  have hs : {x : Fin 3 → ℝ | (∑ i, |x i| ^ (2 : ℝ)) ^ (1 / (2 : ℝ)) < r} = ballOf r := by
    ext x
    show (∑ i, |x i| ^ (2 : ℝ)) ^ (1 / (2 : ℝ)) < r ↔ Real.sqrt (dot x x) < r
    rw [Real.sqrt_eq_rpow, Fin.sum_univ_three, dot]
    simp only [Real.rpow_two, sq_abs, ← sq]
  rw [hs] at h
  rw [h, Fintype.card_fin]
  congr 2
  have g1 : Real.Gamma (1 / 2 + 1) = 1 / 2 * Real.sqrt Real.pi := by
    rw [Real.Gamma_add_one (by norm_num), Real.Gamma_one_half_eq]
  have g2 : Real.Gamma (((3 : ℕ) : ℝ) / 2 + 1) = 3 / 2 * (1 / 2 * Real.sqrt Real.pi) := by
    rw [show (((3 : ℕ) : ℝ) / 2 + 1) = (1 / 2 + 1) + 1 by norm_num, Real.Gamma_add_one (by norm_num), g1]; norm_num
  have hp : 0 < Real.sqrt Real.pi := Real.sqrt_pos.2 Real.pi_pos
  have hpp : Real.sqrt Real.pi ^ 2 = Real.pi := Real.sq_sqrt Real.pi_pos.le
  rw [g1, g2, div_eq_iff (by positivity)]
  linear_combination (Real.sqrt Real.pi) * hpp

/-! ### The determinants of a covering of the sphere -/

theorem comb_dot (u v w : ℝ) {e : ℝ} {t : Corners} (h : NiceT e t) : dot (comb u v w t) (comb u v w t) =
    u ^ 2 + v ^ 2 + w ^ 2 + 2 * (u * v * dot t.1 t.2.1 + v * w * dot t.2.1 t.2.2 + w * u * dot t.2.2 t.1) := by
  have h' : Nice e t.1 t.2.1 t.2.2 := h
  have ha := h'.ha
  have hb := h'.hb
  have hc := h'.hc
  simp only [dot, comb] at *
  linear_combination u ^ 2 * ha + v ^ 2 * hb + w ^ 2 * hc

theorem det_upper {e : ℝ} {l : List Corners} {region : V3 → Prop} (h : Tile e region l) : detSum l ≤ 8 * Real.pi := by
  have h1 := tetra_sum_le l (ballOf 1) h.apart fun t ht x hx => by
    obtain ⟨y, ⟨y0, y1, y2, y3⟩, rfl⟩ := hx
    show Real.sqrt _ < 1
    rw [toCorners_apply, Real.sqrt_lt' one_pos, comb_dot _ _ _ (h.nice t ht)]
    obtain ⟨l1, l2, l3⟩ := Nice.le_one (h.nice t ht)
    have k1 := mul_le_mul_of_nonneg_left l1 (mul_nonneg y0.le y1.le)
    have k2 := mul_le_mul_of_nonneg_left l2 (mul_nonneg y1.le y2.le)
    have k3 := mul_le_mul_of_nonneg_left l3 (mul_nonneg y2.le y0.le)
    nlinarith
  simp only [tetraO_volume] at h1
  rw [sum_volume, simplex_sixth, ball_volume, ENNReal.ofReal_one, one_pow, one_mul, ← ENNReal.ofReal_mul (detSum_nonneg l),
    ENNReal.ofReal_le_ofReal_iff (by positivity)] at h1
  linarith

theorem det_lower {e : ℝ} (he : e ≤ 1) {l : List Corners} (h : Tile e (fun _ => True) l) :
    8 * Real.pi * Real.sqrt (1 - e) ^ 3 ≤ detSum l := by
  have h1 := tetra_sum_ge l (ballOf (Real.sqrt (1 - e))) fun x hx => by
    obtain ⟨t, ht, u, v, w, hu, hv, hw, rfl⟩ := h.cover x trivial
    refine ⟨t, ht, ![u, v, w], ⟨hu, hv, hw, ?_⟩, by rw [toCorners_apply]; rfl⟩
    have hx' : Real.sqrt (dot (comb u v w t) (comb u v w t)) < Real.sqrt (1 - e) := hx
    have hx2 := (Real.sqrt_lt_sqrt_iff_of_pos (Real.sqrt_pos.1 ((Real.sqrt_nonneg _).trans_lt hx'))).1 hx'
    rw [comb_dot _ _ _ (h.nice t ht)] at hx2
    have n := h.nice t ht
    have k1 := mul_le_mul_of_nonneg_left n.ab (mul_nonneg hu hv)
    have k2 := mul_le_mul_of_nonneg_left n.bc (mul_nonneg hv hw)
    have k3 := mul_le_mul_of_nonneg_left n.ca (mul_nonneg hw hu)
    have he0 : 0 ≤ e := by
      have := n.ab
      have l1 := (Nice.le_one n).1
      linarith
    show u + v + w ≤ 1
    by_contra hc
    push Not at hc
    have hc1 : 0 ≤ 1 - e := by linarith
    have hsq : 1 < (u + v + w) ^ 2 := by nlinarith
    have hlow : (1 - e) * (u + v + w) ^ 2 ≤ u ^ 2 + v ^ 2 + w ^ 2 + 2 * (u * v * dot t.1 t.2.1 + v * w * dot t.2.1 t.2.2 + w * u * dot t.2.2 t.1) := by
      have := mul_nonneg he0 (by positivity : 0 ≤ u ^ 2 + v ^ 2 + w ^ 2)
      linarith
    nlinarith
  simp only [tetraC_volume] at h1
  rw [sum_volume, simplex_sixth, ball_volume, ← ENNReal.ofReal_mul (detSum_nonneg l), ← ENNReal.ofReal_pow (Real.sqrt_nonneg _),
    ← ENNReal.ofReal_mul (by positivity), ENNReal.ofReal_le_ofReal_iff (mul_nonneg (detSum_nonneg l) (by norm_num))] at h1
  linarith

/-! ### The areas -/

/-- The area of a plane triangle: half of the product of two sides and the sine of their angle. -/
noncomputable def triArea (t : Corners) : ℝ :=
  Real.sqrt (dot (t.2.1 - t.1) (t.2.1 - t.1) * dot (t.2.2 - t.1) (t.2.2 - t.1) - dot (t.2.1 - t.1) (t.2.2 - t.1) ^ 2) / 2

/-- C95: the entries of `triangle_area_vector` are the areas of the triangles. -/
theorem areas_eq (m : Mesh) : areas m = m.corners.map triArea := by
  rw [areas, Mesh.corners, List.map_map]
  refine List.map_congr_left fun t _ => ?_
  simp only [Function.comp, triArea, corners, dot, Pi.sub_apply]
  rw [show (0.5 : ℝ) = 1 / 2 by norm_num, one_div_mul_eq_div]
  congr 2
  ring

theorem area_det {e : ℝ} (he : e ≤ 1) {t : Corners} (h : NiceT e t) :
    |det t.1 t.2.1 t.2.2| ≤ 2 * triArea t ∧ Real.sqrt (1 - e) * (2 * triArea t) ≤ |det t.1 t.2.1 t.2.2| := by
  have h' : Nice e t.1 t.2.1 t.2.2 := h
  set p := dot t.1 t.2.1 with hp
  set q := dot t.2.1 t.2.2 with hq
  set r := dot t.2.2 t.1 with hr
  have hD : det t.1 t.2.1 t.2.2 ^ 2 = 1 + 2 * p * q * r - p ^ 2 - q ^ 2 - r ^ 2 := by
    have : det t.1 t.2.1 t.2.2 ^ 2 = dot t.1 t.1 * dot t.2.1 t.2.1 * dot t.2.2 t.2.2 + 2 * p * q * r
        - dot t.2.2 t.2.2 * p ^ 2 - dot t.1 t.1 * q ^ 2 - dot t.2.1 t.2.1 * r ^ 2 := by
      rw [hp, hq, hr]; simp only [det, dot]; ring
    rw [this, h'.ha, h'.hb, h'.hc]; ring
  have hG : dot (t.2.1 - t.1) (t.2.1 - t.1) * dot (t.2.2 - t.1) (t.2.2 - t.1) - dot (t.2.1 - t.1) (t.2.2 - t.1) ^ 2 =
      4 * (1 - p) * (1 - r) - (1 + q - p - r) ^ 2 := by
    have e1 : dot (t.2.1 - t.1) (t.2.1 - t.1) = dot t.2.1 t.2.1 + dot t.1 t.1 - 2 * p := by rw [hp]; simp only [dot, Pi.sub_apply]; ring
    have e2 : dot (t.2.2 - t.1) (t.2.2 - t.1) = dot t.2.2 t.2.2 + dot t.1 t.1 - 2 * r := by rw [hr]; simp only [dot, Pi.sub_apply]; ring
    have e3 : dot (t.2.1 - t.1) (t.2.2 - t.1) = q - p - r + dot t.1 t.1 := by rw [hp, hq, hr]; simp only [dot, Pi.sub_apply]; ring
    rw [e1, e2, e3, h'.ha, h'.hb, h'.hc]; ring
  obtain ⟨f1, f2, f3⟩ := h'.flat
  obtain ⟨l1, l2, l3⟩ := h'.le_one
  obtain ⟨n1, n2, n3⟩ := h'.nonneg he
  have a1 := h'.ab
  have a3 := h'.ca
  rw [← hp] at f1 f2 f3 l1 n1 a1
  rw [← hq] at f1 f2 f3 l2 n2
  rw [← hr] at f1 f2 f3 l3 n3 a3
  have wa : 0 ≤ (1 - q) * (1 + q - p - r) := mul_nonneg (by linarith) (by linarith)
  have wb : 0 ≤ (1 - r) * (1 + r - p - q) := mul_nonneg (by linarith) (by linarith)
  have wc : 0 ≤ (1 - p) * (1 + p - q - r) := mul_nonneg (by linarith) (by linarith)
  have eD : det t.1 t.2.1 t.2.2 ^ 2 = (1 - q) * (1 + q - p - r) + p * ((1 - r) * (1 + r - p - q)) + r * ((1 - p) * (1 + p - q - r)) := by
    rw [hD]; ring
  have eG : 4 * (1 - p) * (1 - r) - (1 + q - p - r) ^ 2 = (1 - q) * (1 + q - p - r) + (1 - r) * (1 + r - p - q) + (1 - p) * (1 + p - q - r) := by
    ring
  have he0 : 0 ≤ e := by linarith
  have hA : 2 * triArea t = Real.sqrt (4 * (1 - p) * (1 - r) - (1 + q - p - r) ^ 2) := by rw [triArea, hG]; ring
  have b1 := mul_le_mul_of_nonneg_right l1 wb
  have b2 := mul_le_mul_of_nonneg_right l3 wc
  have b3 := mul_le_mul_of_nonneg_right a1 wb
  have b4 := mul_le_mul_of_nonneg_right a3 wc
  have b5 := mul_nonneg he0 wa
  rw [hA]
  constructor
  · rw [← Real.sqrt_sq_eq_abs]
    apply Real.sqrt_le_sqrt
    rw [eD, eG]
    linarith
  · rw [← Real.sqrt_mul (by linarith), ← Real.sqrt_sq_eq_abs]
    apply Real.sqrt_le_sqrt
    rw [eD, eG]
    linarith

theorem areas_bounds {e : ℝ} (he : e ≤ 1) {l : List Corners} {region : V3 → Prop} (h : Tile e region l) :
    detSum l ≤ 2 * (l.map triArea).sum ∧ Real.sqrt (1 - e) * (2 * (l.map triArea).sum) ≤ detSum l := by
  have hn := h.nice
  clear h
  induction l with
  | nil => simp [detSum]
  | cons t l ih =>
    obtain ⟨i1, i2⟩ := ih fun t ht => hn t (List.mem_cons_of_mem _ ht)
    obtain ⟨d1, d2⟩ := area_det he (hn t List.mem_cons_self)
    have e1 : detSum (t :: l) = |det t.1 t.2.1 t.2.2| + detSum l := rfl
    rw [e1, List.map_cons, List.sum_cons]
    constructor
    · linarith
    · rw [mul_add, mul_add]; linarith

/-- C95: the areas of the triangles of the sphere add up to its area, `4π`, within a factor that tends to one: with `c = 1 - 3/(4ⁿ+2)` their sum is
at least `4π c^{3/2}` and at most `4π / c^{1/2}`. -/
theorem sphere_area (n : Nat) : 4 * Real.pi * Real.sqrt (1 - 3 / (4 ^ n + 2)) ^ 3 ≤ (areas (sphere n)).sum ∧
    Real.sqrt (1 - 3 / (4 ^ n + 2)) * (areas (sphere n)).sum ≤ 4 * Real.pi := by
  obtain ⟨_, h2, _⟩ := iterate_mesh octahedron_proper octahedron_tile n
  have hs := (side_range n).2
  obtain ⟨b1, b2⟩ := areas_bounds hs h2
  have u := det_upper h2
  have l := det_lower hs h2
  rw [areas_eq]
  rw [side] at b2 l
  rw [sphere]
  constructor
  · linarith
  · linarith

theorem ratio_tendsto : Filter.Tendsto (fun n : Nat => Real.sqrt (1 - 3 / ((4 : ℝ) ^ n + 2))) Filter.atTop (nhds 1) := by
  have h1 : Filter.Tendsto (fun n : Nat => (4 : ℝ) ^ n + 2) Filter.atTop Filter.atTop :=
    Filter.tendsto_atTop_add_const_right _ _ (tendsto_pow_atTop_atTop_of_one_lt (by norm_num))
  have h2 : Filter.Tendsto (fun n : Nat => 3 / ((4 : ℝ) ^ n + 2)) Filter.atTop (nhds 0) := h1.const_div_atTop 3
  have h3 : Filter.Tendsto (fun n : Nat => 1 - 3 / ((4 : ℝ) ^ n + 2)) Filter.atTop (nhds (1 - 0)) := h2.const_sub 1
  rw [sub_zero] at h3
  have := (Real.continuous_sqrt.tendsto 1).comp h3
  rwa [Real.sqrt_one] at this

/-- C95: with more refinements the sum of the areas tends to the area of the sphere. -/
theorem sphere_area_tendsto : Filter.Tendsto (fun n => (areas (sphere n)).sum) Filter.atTop (nhds (4 * Real.pi)) := by
  have hr := ratio_tendsto
  have hlow : Filter.Tendsto (fun n : Nat => 4 * Real.pi * Real.sqrt (1 - 3 / ((4 : ℝ) ^ n + 2)) ^ 3) Filter.atTop (nhds (4 * Real.pi)) := by
    have := (hr.pow 3).const_mul (4 * Real.pi)
    rwa [one_pow, mul_one] at this
  have hup : Filter.Tendsto (fun n : Nat => 4 * Real.pi / Real.sqrt (1 - 3 / ((4 : ℝ) ^ n + 2))) Filter.atTop (nhds (4 * Real.pi)) := by
    have := (tendsto_const_nhds (x := 4 * Real.pi)).div hr one_ne_zero
    rwa [div_one] at this
  refine tendsto_of_tendsto_of_tendsto_of_le_of_le' hlow hup (Filter.Eventually.of_forall fun n => (sphere_area n).1) ?_
  filter_upwards [Filter.eventually_ge_atTop 1] with n hn
  have h4 : (4 : ℝ) ≤ 4 ^ n := by
    calc (4 : ℝ) = 4 ^ 1 := (pow_one _).symm
      _ ≤ 4 ^ n := pow_le_pow_right₀ (by norm_num) hn
  have hpos : 0 < Real.sqrt (1 - 3 / ((4 : ℝ) ^ n + 2)) := by
    apply Real.sqrt_pos.2
    rw [sub_pos, div_lt_one (by positivity)]
    linarith
  rw [le_div_iff₀ hpos, mul_comm]
  exact (sphere_area n).2

/-! ### The half sphere -/

/-- The mirror image in the plane of the base. -/
def mirrorV (x : V3) : V3 := ![x 0, x 1, -x 2]
def mirror (t : Corners) : Corners := (mirrorV t.1, mirrorV t.2.1, mirrorV t.2.2)

theorem mirror_mid (a b : V3) : mirrorV (mid a b) = mid (mirrorV a) (mirrorV b) := by
  have hn : (a 2 + b 2) ^ 2 = (-a 2 + -b 2) ^ 2 := by ring
  funext i
  fin_cases i
  · simp [mirrorV, mid, unit, hn]
  · simp [mirrorV, mid, unit, hn]
  · simp [mirrorV, mid, unit, hn]; ring

theorem mirror_split (t : Corners) : split4 (mirror t) = (split4 t).map mirror := by
  simp only [split4, mirror, mirror_mid, List.map_cons, List.map_nil]

theorem mirror_area (t : Corners) : triArea (mirror t) = triArea t := by
  rw [triArea, triArea]
  congr 2
  simp [mirror, mirrorV, dot]
  ring

theorem half_corners (n : Nat) : (sphere n).corners = (halfSphere n 1).corners ++ (halfSphere n (-1)).corners ∧
    (halfSphere n (-1)).corners = (halfSphere n 1).corners.map mirror := by
  rw [sphere, halfSphere, halfSphere]
  induction n with
  | zero =>
    refine ⟨octahedron_corners, ?_⟩
    show (pyramid (-1)).corners = (pyramid 1).corners.map mirror
    rw [pyramid_corners, pyramid_corners]
    simp [mirror, mirrorV]
  | succ n ih =>
    obtain ⟨i1, i2⟩ := ih
    have p1 := (iterate_mesh octahedron_proper octahedron_tile n).1
    have p2 := (iterate_mesh (pyramid_proper (Or.inl rfl)) (pyramid_tile (Or.inl rfl)) n).1
    have p3 := (iterate_mesh (pyramid_proper (Or.inr rfl)) (pyramid_tile (Or.inr rfl)) n).1
    rw [Function.iterate_succ_apply', Function.iterate_succ_apply', Function.iterate_succ_apply', (refine_proper p1).2.1,
      (refine_proper p2).2.1, (refine_proper p3).2.1]
    refine ⟨by rw [i1, List.flatMap_append], ?_⟩
    rw [i2, List.flatMap_map, List.map_flatMap]
    congr 1
    funext t
    exact mirror_split t

/-- C95: a half sphere has half of the area of the sphere. -/
theorem half_sphere_area (n : Nat) (p : ℝ) (hp : p = 1 ∨ p = -1) : 2 * (areas (halfSphere n p)).sum = (areas (sphere n)).sum := by
  obtain ⟨h1, h2⟩ := half_corners n
  have h3 : (halfSphere n (-1)).corners.map triArea = (halfSphere n 1).corners.map triArea := by
    rw [h2, List.map_map]
    exact List.map_congr_left fun t _ => mirror_area t
  rw [areas_eq, areas_eq, h1, List.map_append, List.sum_append, h3]
  rcases hp with rfl | rfl
  · ring
  · rw [h3]; ring

/-- C95: the integral of a constant over the whole sphere, as the package computes it, is the constant times the sum of the areas. -/
theorem integral_const {m : Mesh} (h : Made m) (f : ℝ) :
    (List.zipWith (· * ·) (areaSelection m (0, Real.pi) (-Real.pi, Real.pi)) (averages m fun _ => f)).sum = f * (areas m).sum := by
  rw [areaSelection, selection_full h, areas_eq]
  have h1 : averages m (fun _ => f) = m.corners.map fun _ => f := by
    rw [averages, Mesh.corners, List.map_map]
    refine List.map_congr_left fun t _ => ?_
    simp only [Function.comp]
    ring
  rw [h1]
  induction m.corners with
  | nil => simp
  | cons t l ih =>
    simp only [List.map_cons, List.zipWith_cons_cons, List.sum_cons] at ih ⊢
    rw [ih]; ring

/-- C95: the value of a triangle is exact for every affine function: it is the value at the centre of the triangle. -/
theorem averages_affine (m : Mesh) (c : ℝ) (g : V3) :
    averages m (fun i => c + ∑ b, g b * pt m.points i b) =
      m.corners.map fun t => c + ∑ b, g b * ((t.1 b + t.2.1 b + t.2.2 b) / 3) := by
  rw [averages, Mesh.corners, List.map_map]
  refine List.map_congr_left fun t _ => ?_
  simp only [Function.comp, Fin.sum_univ_three, Far.corners]
  ring

/-- The first bounds that say something, after one refinement: `c = 1/2`. -/
example : (1 : ℝ) - 3 / (4 ^ 1 + 2) = 1 / 2 := by norm_num

end Verif.Far
