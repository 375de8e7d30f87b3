import Verif.Far.Scatter
import Verif.Far.TransformProps
import Verif.Far.MeshArea
import Verif.Fdfd.OverlapObjProps
/-
C96, second part: the objective on the direction of the radiated power.
-/
namespace Verif.Far
open Matrix Verif.Fdfd Verif.Fdfd.OverlapObj

variable {k n : Nat}

/-! ### Specification -/

/-- The intensity of the far field in the direction of a point: the squares of the two components across it. -/
noncomputable def intensity (F : VField k) (i : Nat) : ℝ := if h : i < k then ‖F (1, ⟨i, h⟩)‖ ^ 2 + ‖F (2, ⟨i, h⟩)‖ ^ 2 else 0

open Classical in
/-- The power radiated into a region of directions: over the triangles with the centre in the region, the area times the mean of the intensities at the
three corners. -/
noncomputable def powerInto (m : Mesh) (region : V3 → Prop) (I : Nat → ℝ) : ℝ :=
  (m.triangles.map fun t => if region (gravity (corners m.points t)) then
    triArea (corners m.points t) * ((I t.1 + I t.2.1 + I t.2.2) / 3) else 0).sum

/-! ### The power vectors -/

theorem intensity_nonneg (F : VField k) (i : Nat) : 0 ≤ intensity F i := by
  rw [intensity]; split <;> positivity

theorem triWeight_sum (F : VField k) (t : Tri) (h : t.Below k) :
    (∑ i : Fin k, triWeight t i * intensity F i) = (intensity F t.1 + intensity F t.2.1 + intensity F t.2.2) / 3 := by
  have key : ∀ j, j < k → (∑ i : Fin k, (if j = (i : Nat) then (1 : ℝ) / 3 else 0) * intensity F i) = intensity F j / 3 := by
    intro j hj
    rw [Finset.sum_eq_single (⟨j, hj⟩ : Fin k)]
    · simp; ring
    · intro b _ hb
      rw [if_neg (fun e => hb (Fin.ext e.symm)), zero_mul]
    · intro hh; exact absurd (Finset.mem_univ _) hh
  simp only [triWeight, add_mul, Finset.sum_add_distrib]
  rw [key _ h.1, key _ h.2.1, key _ h.2.2]
  ring

theorem zip_sum (F : VField k) : ∀ (w : List ℝ) (ts : List Tri), (∀ t ∈ ts, Tri.Below t k) →
    (∑ i : Fin k, (List.zipWith (fun a t => a * triWeight t i) w ts).sum * intensity F i) =
      (List.zipWith (fun a (t : Tri) => a * ((intensity F t.1 + intensity F t.2.1 + intensity F t.2.2) / 3)) w ts).sum
  | [], _, _ => by simp
  | _ :: _, [], _ => by simp
  | a :: w, t :: ts, h => by
    simp only [List.zipWith_cons_cons, List.sum_cons, add_mul, Finset.sum_add_distrib]
    rw [zip_sum F w ts fun t ht => h t (List.mem_cons_of_mem _ ht)]
    congr 1
    rw [← triWeight_sum F t (h t List.mem_cons_self), Finset.mul_sum]
    exact Finset.sum_congr rfl fun i _ => by ring

theorem powerOf_vector (m : Mesh) (hm : ∀ t ∈ m.triangles, Tri.Below t m.points.length) (w : List ℝ) (F : VField m.points.length) :
    powerOf (powerVector m w) F = (List.zipWith (fun a (t : Tri) => a * ((intensity F t.1 + intensity F t.2.1 + intensity F t.2.2) / 3)) w
      m.triangles).sum := by
  rw [← zip_sum F w m.triangles hm, powerOf, Fintype.sum_prod_type, Fin.sum_univ_three, ← Finset.sum_add_distrib, ← Finset.sum_add_distrib]
  refine Finset.sum_congr rfl fun i _ => ?_
  rw [intensity, dif_pos i.2]
  simp only [powerVector, if_true, zero_mul, zero_add]
  rw [if_neg (by decide), if_neg (by decide)]
  ring

open Classical in
theorem powerOf_region {m : Mesh} (h : Made m) {th ph : ℝ × ℝ} {region : V3 → Prop}
    (hs : selection m th ph = m.corners.map fun t => if region (gravity t) then 1 else 0) (F : VField m.points.length) :
    powerOf (powerVector m (areaSelection m th ph)) F = powerInto m region (intensity F) := by
  obtain ⟨n, reg, hP, hT⟩ := h.nice
  rw [powerOf_vector m (fun t ht => hP.below t ht), areaSelection, hs, areas_eq, powerInto, Mesh.corners]
  induction m.triangles with
  | nil => rfl
  | cons t ts ih =>
    simp only [List.map_cons, List.zipWith_cons_cons, List.sum_cons] at ih ⊢
    rw [ih]
    congr 1
    by_cases hh : region (gravity (corners m.points t))
    · rw [if_pos hh, if_pos hh]; ring
    · rw [if_neg hh, if_neg hh]; ring

theorem area_nonneg (t : Corners) : 0 ≤ triArea t := div_nonneg (Real.sqrt_nonneg _) (by norm_num)

theorem area_pos {m : Mesh} (h : Made m) {t : Tri} (ht : t ∈ m.triangles) : 0 < triArea (corners m.points t) := by
  obtain ⟨n, reg, hP, hT⟩ := h.nice
  have hn := hT.nice _ (List.mem_map_of_mem ht)
  have hd := (area_det (side_range n).2 hn).1
  have : 0 < |det (corners m.points t).1 (corners m.points t).2.1 (corners m.points t).2.2| := abs_pos.2 hn.det
  linarith

theorem powerInto_nonneg (m : Mesh) (region : V3 → Prop) {I : Nat → ℝ} (hI : ∀ i, 0 ≤ I i) : 0 ≤ powerInto m region I := by
  refine List.sum_nonneg fun x hx => ?_
  obtain ⟨t, _, rfl⟩ := List.mem_map.1 hx
  split
  · exact mul_nonneg (area_nonneg _) (div_nonneg (add_nonneg (add_nonneg (hI _) (hI _)) (hI _)) (by norm_num))
  · exact le_refl _

/-- The power into a region and the power outside add up to the power. -/
theorem powerInto_split (m : Mesh) (region : V3 → Prop) (I : Nat → ℝ) :
    powerInto m region I + powerInto m (fun c => ¬region c) I = powerInto m (fun _ => True) I := by
  unfold powerInto
  rw [← List.sum_map_add]
  refine congrArg List.sum (List.map_congr_left fun t _ => ?_)
  by_cases h : region (gravity (corners m.points t))
  · rw [if_pos h, if_neg (not_not.2 h), if_pos trivial, add_zero]
  · rw [if_neg h, if_pos h, if_pos trivial, zero_add]

theorem sum_zero_iff {α : Type} (l : List α) (f : α → ℝ) (h : ∀ a ∈ l, 0 ≤ f a) : (l.map f).sum = 0 ↔ ∀ a ∈ l, f a = 0 := by
  induction l with
  | nil => simp
  | cons a l ih =>
    have h1 := h a List.mem_cons_self
    have h2 : 0 ≤ (l.map f).sum := List.sum_nonneg fun x hx => by
      obtain ⟨b, hb, rfl⟩ := List.mem_map.1 hx
      exact h b (List.mem_cons_of_mem _ hb)
    rw [List.map_cons, List.sum_cons, add_eq_zero_iff_of_nonneg h1 h2, ih fun b hb => h b (List.mem_cons_of_mem _ hb), List.forall_mem_cons]

theorem powerInto_zero {m : Mesh} (h : Made m) (region : V3 → Prop) {I : Nat → ℝ} (hI : ∀ i, 0 ≤ I i) :
    powerInto m region I = 0 ↔ ∀ t ∈ m.triangles, region (gravity (corners m.points t)) → I t.1 = 0 ∧ I t.2.1 = 0 ∧ I t.2.2 = 0 := by
  classical
  have hnn : ∀ t : Tri, 0 ≤ (if region (gravity (corners m.points t)) then triArea (corners m.points t) * ((I t.1 + I t.2.1 + I t.2.2) / 3) else 0) := by
    intro t
    split
    · exact mul_nonneg (area_nonneg _) (div_nonneg (add_nonneg (add_nonneg (hI _) (hI _)) (hI _)) (by norm_num))
    · exact le_refl _
  rw [powerInto, sum_zero_iff _ _ fun t _ => hnn t]
  refine forall₂_congr fun t ht => ?_
  by_cases hr : region (gravity (corners m.points t))
  · rw [if_pos hr, mul_eq_zero, or_iff_right (area_pos h ht).ne']
    have a := hI t.1
    have b := hI t.2.1
    have c := hI t.2.2
    exact ⟨fun h3 _ => ⟨by linarith, by linarith, by linarith⟩, fun h3 => by rw [(h3 hr).1, (h3 hr).2.1, (h3 hr).2.2]; simp⟩
  · rw [if_neg hr]
    exact ⟨fun _ h => absurd h hr, fun _ => rfl⟩

/-! ### The objective -/

/-- The directions of a triangle are selected exactly if its centre is in the region. -/
def Selects (m : Mesh) (th ph : ℝ × ℝ) (region : V3 → Prop) : Prop := ∀ F : VField m.points.length,
  powerOf (powerVector m (areaSelection m th ph)) F = powerInto m region (intensity F)

/-- C96: the power into a range of azimuths of at most a half turn is that into the region. -/
theorem selects_region_narrow {m : Mesh} (h : Made m) {th ph : ℝ × ℝ} (h0 : -Real.pi < ph.2 - ph.1) (h1 : ph.2 - ph.1 ≤ Real.pi) :
    Selects m th ph (InRegion th ph) := fun F => powerOf_region h (selection_narrow h h0 h1) F

/-- C96: and so for larger ranges. -/
theorem selects_region_wide {m : Mesh} (h : Made m) {th ph : ℝ × ℝ} (h0 : Real.pi < ph.2 - ph.1) (h1 : ph.2 - ph.1 < 3 * Real.pi) :
    Selects m th ph (InRegionC th ph) := fun F => powerOf_region h (selection_wide h h0 h1) F

theorem selects_all {m : Mesh} (h : Made m) : Selects m (0, Real.pi) (-Real.pi, Real.pi) fun _ => True := fun F => by
  classical
  exact powerOf_region h (by rw [selection_full h]; exact List.map_congr_left fun t _ => by rw [if_pos trivial]) F

/-- The fraction of the power that goes into the region. -/
noncomputable def fraction (m : Mesh) (region : V3 → Prop) (F : VField m.points.length) : ℝ :=
  powerInto m region (intensity F) / powerInto m (fun _ => True) (intensity F)

theorem fraction_range (m : Mesh) (region : V3 → Prop) (F : VField m.points.length) : 0 ≤ fraction m region F ∧ fraction m region F ≤ 1 := by
  have a := powerInto_nonneg m region (intensity_nonneg F)
  have b := powerInto_nonneg m (fun c => ¬region c) (intensity_nonneg F)
  have s := powerInto_split m region (intensity F)
  exact ⟨div_nonneg a (by linarith), div_le_one_of_le₀ (by linarith) (by linarith)⟩

/-- C96: the objective is the square of the fraction of the power that misses the region, a number from zero to one; without radiated power it is a NaN. -/
theorem scatter_value {m : Mesh} (h : Made m) (proj : ToFar m.points.length n) {th ph : ℝ × ℝ} {region : V3 → Prop} (hs : Selects m th ph region)
    (x : VField n) :
    (powerInto m (fun _ => True) (intensity (proj *ᵥ x)) ≠ 0 →
      (scatterCfg m proj th ph).f none x = .ok ((1 - fraction m region (proj *ᵥ x)) ^ 2) ∧ 0 ≤ (1 - fraction m region (proj *ᵥ x)) ^ 2 ∧
      (1 - fraction m region (proj *ᵥ x)) ^ 2 ≤ 1) ∧
    (powerInto m (fun _ => True) (intensity (proj *ᵥ x)) = 0 → (scatterCfg m proj th ph).f none x = .error .nan) := by
  have e1 : powerOf (scatterCfg m proj th ph).scattered (proj *ᵥ x) = _ := selects_all h _
  have e2 : powerOf (scatterCfg m proj th ph).directed (proj *ᵥ x) = _ := hs _
  have hp : (scatterCfg m proj th ph).proj = proj := rfl
  obtain ⟨r0, r1⟩ := fraction_range m region (proj *ᵥ x)
  constructor
  · intro hne
    refine ⟨?_, sq_nonneg _, by nlinarith⟩
    simp only [ScatterCfg.f, hp, e1, e2]
    rw [if_neg hne]
    change Except.ok (((if fraction m region (proj *ᵥ x) < 1 then 1 else 0) * (1 - fraction m region (proj *ᵥ x))) ^ 2) = _
    by_cases hl : fraction m region (proj *ᵥ x) < 1
    · rw [if_pos hl, one_mul]
    · rw [if_neg hl, le_antisymm r1 (not_lt.1 hl)]; norm_num
  · intro h0
    simp only [ScatterCfg.f, hp, e1]
    rw [if_pos h0]

/-- C96: the objective is zero exactly if all radiated power goes into the region. -/
theorem scatter_zero {m : Mesh} (h : Made m) (proj : ToFar m.points.length n) {th ph : ℝ × ℝ} {region : V3 → Prop} (hs : Selects m th ph region)
    (x : VField n) (hne : powerInto m (fun _ => True) (intensity (proj *ᵥ x)) ≠ 0) :
    (scatterCfg m proj th ph).f none x = .ok 0 ↔ ∀ t ∈ m.triangles, ¬region (gravity (corners m.points t)) →
      intensity (proj *ᵥ x) t.1 = 0 ∧ intensity (proj *ᵥ x) t.2.1 = 0 ∧ intensity (proj *ᵥ x) t.2.2 = 0 := by
  rw [((scatter_value h proj hs x).1 hne).1, ← powerInto_zero h (fun c => ¬region c) (intensity_nonneg _)]
  have s := powerInto_split m region (intensity (proj *ᵥ x))
  rw [fraction]
  constructor
  · intro he
    have : (1 - powerInto m region (intensity (proj *ᵥ x)) / powerInto m (fun _ => True) (intensity (proj *ᵥ x))) ^ 2 = 0 := Except.ok.inj he
    have h1 := pow_eq_zero_iff (two_ne_zero) |>.1 this
    have h2 := (div_eq_one_iff_eq hne).1 (sub_eq_zero.1 h1).symm
    linarith
  · intro he
    rw [he, add_zero] at s
    rw [s, div_self hne]; norm_num

/-- C96: with a background field the objective cannot be evaluated. -/
theorem scatter_background_false (c : ScatterCfg k n) (b x : VField n) : c.f (some b) x = .error .nameError ∧ c.dfdx (some b) x = .error .nameError :=
  ⟨rfl, rfl⟩

/-! ### The gradient -/

noncomputable def rowL (M : ToFar k n) (q : Fin 3 × Fin k) : VField n →L[ℝ] ℂ :=
  LinearMap.toContinuousLinearMap
    { toFun := fun x => (M *ᵥ x) q
      map_add' := by intro x y; rw [Matrix.mulVec_add]; rfl
      map_smul' := by
        intro a x
        rw [Matrix.mulVec_smul]; rfl }

theorem rowL_apply (M : ToFar k n) (q : Fin 3 × Fin k) (v : VField n) : rowL M q v = (M *ᵥ v) q := rfl

theorem power_deriv (v : Fin 3 × Fin k → ℝ) (M : ToFar k n) (x : VField n) :
    FieldDeriv (fun y => powerOf v (M *ᵥ y)) (powerGrad v (M *ᵥ x) M) x := by
  have h1 : ∀ q, HasFDerivAt (fun y => v q * ‖(M *ᵥ y) q‖ ^ 2) (v q • (2 • (innerSL ℝ ((M *ᵥ x) q)).comp (rowL M q))) x := by
    intro q
    have := ((rowL M q).hasFDerivAt (x := x)).norm_sq
    exact this.const_mul (v q)
  have h2 : HasFDerivAt (fun y => ∑ q, v q * ‖(M *ᵥ y) q‖ ^ 2) (∑ q, v q • (2 • (innerSL ℝ ((M *ᵥ x) q)).comp (rowL M q))) x :=
    HasFDerivAt.fun_sum fun q _ => h1 q
  refine ⟨_, h2, fun u => ?_⟩
  have e : (∑ p, 2 * (powerGrad v (M *ᵥ x) M p * u p).re) = 2 * (∑ q, (v q : ℂ) * star ((M *ᵥ x) q) * (M *ᵥ u) q).re := by
    rw [← Finset.mul_sum, ← Complex.re_sum]
    congr 2
    simp only [powerGrad, Finset.sum_mul, Matrix.mulVec, dotProduct, Finset.mul_sum]
    rw [Finset.sum_comm]
    exact Finset.sum_congr rfl fun q _ => Finset.sum_congr rfl fun p _ => by ring
  rw [e, Complex.re_sum, Finset.mul_sum, _root_.sum_apply]
  refine Finset.sum_congr rfl fun q _ => ?_
  simp only [_root_.smul_apply, ContinuousLinearMap.comp_apply, smul_eq_mul, innerSL_apply_apply, rowL_apply]
  rw [← Verif.Obj.re_star_mul, mul_assoc (v q : ℂ), Complex.re_ofReal_mul]
  simp only [nsmul_eq_mul]
  push_cast
  rw [show RCLike.re (star ((M *ᵥ x) q) * (M *ᵥ u) q) = (star ((M *ᵥ x) q) * (M *ᵥ u) q).re from rfl]
  ring

theorem quotient_deriv {A B : VField n → ℝ} {a b x : VField n} (hA : FieldDeriv A a x) (hB : FieldDeriv B b x) (h0 : B x ≠ 0) :
    FieldDeriv (fun y => (1 - A y / B y) ^ 2) (fun p => 2 * ((1 - A x / B x : ℝ) : ℂ) * (-1 * ((a p * B x - A x * b p) / (B x : ℂ) ^ 2))) x := by
  obtain ⟨LA, hA, hA'⟩ := hA
  obtain ⟨LB, hB, hB'⟩ := hB
  have hi := (hasDerivAt_inv h0).comp_hasFDerivAt x hB
  have hq := ((hA.mul hi).const_sub 1)
  have hs := (sq_hasDerivAt (1 - A x * (B x)⁻¹)).comp_hasFDerivAt x hq
  refine ⟨_, (hs.congr_of_eventuallyEq (Filter.Eventually.of_forall fun y => ?_)), fun v => ?_⟩
  · simp only [Function.comp, div_eq_mul_inv, Pi.mul_apply]
  · simp only [_root_.smul_apply, _root_.neg_apply, _root_.add_apply, smul_eq_mul, hA', hB', Function.comp]
    have hcb : (B x : ℂ) ≠ 0 := by exact_mod_cast h0
    have e : ∀ p, 2 * ((2 * ((1 - A x / B x : ℝ) : ℂ) * (-1 * ((a p * B x - A x * b p) / (B x : ℂ) ^ 2))) * v p).re =
        (-2 * (1 - A x / B x) / B x) * (2 * (a p * v p).re) + (2 * (1 - A x / B x) * A x / B x ^ 2) * (2 * (b p * v p).re) := by
      intro p
      have : (2 * ((1 - A x / B x : ℝ) : ℂ) * (-1 * ((a p * B x - A x * b p) / (B x : ℂ) ^ 2))) * v p =
          ((-2 * (1 - A x / B x) / B x : ℝ) : ℂ) * (a p * v p) + ((2 * (1 - A x / B x) * A x / B x ^ 2 : ℝ) : ℂ) * (b p * v p) := by
        push_cast
        field_simp
        ring
      rw [this, Complex.add_re, Complex.re_ofReal_mul, Complex.re_ofReal_mul]
      ring
    have e2 : (∑ p, 2 * ((2 * ((1 - A x / B x : ℝ) : ℂ) * (-1 * ((a p * B x - A x * b p) / (B x : ℂ) ^ 2))) * v p).re) =
        (-2 * (1 - A x / B x) / B x) * (∑ p, 2 * (a p * v p).re) + (2 * (1 - A x / B x) * A x / B x ^ 2) * ∑ p, 2 * (b p * v p).re := by
      rw [Finset.sum_congr rfl fun p _ => e p, Finset.sum_add_distrib, Finset.mul_sum (f := fun p => 2 * (a p * v p).re),
        Finset.mul_sum (f := fun p => 2 * (b p * v p).re)]
    rw [e2]
    generalize (∑ p, 2 * (a p * v p).re) = X
    generalize (∑ p, 2 * (b p * v p).re) = Y
    field_simp
    ring

/-- C96: where power is radiated, the reported gradient is the derivative of the objective with respect to the fields. -/
theorem scatter_gradient {m : Mesh} (h : Made m) (proj : ToFar m.points.length n) {th ph : ℝ × ℝ} {region : V3 → Prop} (hs : Selects m th ph region)
    (x : VField n) (hne : powerInto m (fun _ => True) (intensity (proj *ᵥ x)) ≠ 0) :
    ∃ g, (scatterCfg m proj th ph).dfdx none x = .ok g ∧ FieldDeriv (fun y => (1 - fraction m region (proj *ᵥ y)) ^ 2) g x := by
  have e1 : ∀ y, powerOf (scatterCfg m proj th ph).scattered (proj *ᵥ y) = _ := fun y => selects_all h _
  have e2 : ∀ y, powerOf (scatterCfg m proj th ph).directed (proj *ᵥ y) = _ := fun y => hs _
  have hp : (scatterCfg m proj th ph).proj = proj := rfl
  obtain ⟨r0, r1⟩ := fraction_range m region (proj *ᵥ x)
  have hA := power_deriv (scatterCfg m proj th ph).directed proj x
  have hB := power_deriv (scatterCfg m proj th ph).scattered proj x
  have hq := quotient_deriv hA hB (by rw [e1]; exact hne)
  simp only [e1, e2] at hq
  refine ⟨_, by simp only [ScatterCfg.dfdx, hp, e1, e2]; rw [if_neg hne], ?_⟩
  refine (congrArg (fun g => FieldDeriv (fun y => (1 - fraction m region (proj *ᵥ y)) ^ 2) g x) (funext fun p => ?_)).mp hq
  change _ = 2 * (((if fraction m region (proj *ᵥ x) < 1 then (1 : ℝ) else 0) * (1 - fraction m region (proj *ᵥ x)) : ℝ) : ℂ) ^ (2 - 1) *
    ((if fraction m region (proj *ᵥ x) < 1 then (1 : ℂ) else 0) * (-1) * _)
  change 2 * ((1 - fraction m region (proj *ᵥ x) : ℝ) : ℂ) * _ = _
  by_cases hl : fraction m region (proj *ᵥ x) < 1
  · rw [if_pos hl, if_pos hl]; norm_num
  · rw [if_neg hl, if_neg hl, le_antisymm r1 (not_lt.1 hl)]; norm_num

/-- C96: the objective is made for every near field, on the mesh of the package. -/
theorem scatter_made {sh : Shape} (omega : ℂ) (xyz : Fin 3 → Nat → ℝ) (d : Dxes) (near : Near) (th ph : ℝ × ℝ) : Made (sphere 4) ∧
    ∃ t : ToFar (sphere 4).points.length sh.size, scatterProj (sphere 4).points.get omega xyz d near = some t ∧
      basicScatter omega xyz d near th ph = some (scatterCfg (sphere 4) t th ph) := by
  refine ⟨Or.inl ⟨4, rfl⟩, ?_⟩
  have hr : ∀ i, dot ((sphere 4).points.get i) ((sphere 4).points.get i) = 1 := fun i => sphere_unit 4 _ (List.get_mem _ _)
  have : ∃ t : ToFar (sphere 4).points.length sh.size, scatterProj (sphere 4).points.get omega xyz d near = some t := by
    cases near with
    | box center size =>
      obtain ⟨t, ht, _⟩ := box_far_field (sh := sh) (sphere 4).points.get hr omega xyz d center size 1 1 one_ne_zero 2
      exact ⟨t, ht⟩
    | plane pos width =>
      obtain ⟨t, ht, _⟩ := far_field (sh := sh) (sphere 4).points.get hr omega xyz d ⟨pos, width, 1⟩ 1 1 one_ne_zero 2
      exact ⟨t, ht⟩
  obtain ⟨t, ht⟩ := this
  exact ⟨t, ht, by rw [basicScatter, ht, Option.map_some]⟩

/-- The planes on which the near field is taken. -/
noncomputable def nearPlanes : Near → List Plane
  | .box center size => (List.finRange 3).flatMap fun a =>
    [⟨fun b => if b = a then center b - size b / 2 else center b, fun b => if b = a then 0 else size b, -1⟩,
      ⟨fun b => if b = a then center b + size b / 2 else center b, fun b => if b = a then 0 else size b, 1⟩]
  | .plane pos width => [⟨pos, width, 1⟩]

/-- The far field of the currents on all planes. -/
noncomputable def nearField {sh : Shape} (omega : ℂ) (xyz : Fin 3 → Nat → ℝ) (d : Dxes) (l : List Plane) (r : V3) (E : VField sh.size) (b : Fin 3) : ℂ :=
  (l.map fun p => huygens p xyz (gridPos xyz) d omega 1 r (centredE p.axis (asField E)) (centredH p.axis (magneticOf d omega (asField E))) b).sum

/-- C96: the intensity that the objective integrates is, in every direction of the mesh, that of the part across the direction of the far field of the
currents on the given plane or box. -/
theorem scatter_intensity {sh : Shape} (omega : ℂ) (xyz : Fin 3 → Nat → ℝ) (d : Dxes) (near : Near)
    {t : ToFar (sphere 4).points.length sh.size} (ht : scatterProj (sphere 4).points.get omega xyz d near = some t) (E : VField sh.size)
    (i : Fin (sphere 4).points.length) :
    intensity (t *ᵥ E) i = (∑ b, ‖nearField omega xyz d (nearPlanes near) ((sphere 4).points.get i) E b‖ ^ 2) -
      ‖∑ b, ((sphere 4).points.get i b : ℂ) * nearField omega xyz d (nearPlanes near) ((sphere 4).points.get i) E b‖ ^ 2 := by
  have hr : ∀ i, dot ((sphere 4).points.get i) ((sphere 4).points.get i) = 1 := fun i => sphere_unit 4 _ (List.get_mem _ _)
  rw [← transverse_intensity (hr i), intensity, dif_pos i.2]
  have key : ∀ a : Fin 3, a ≠ 0 → (t *ᵥ E) (a, i) = ∑ b, (toSpherical 2 ((sphere 4).points.get i) a b : ℂ) *
      nearField omega xyz d (nearPlanes near) ((sphere 4).points.get i) E b := by
    intro a ha
    cases near with
    | box center size =>
      obtain ⟨s, hs, h⟩ := box_far_field (sh := sh) (sphere 4).points.get hr omega xyz d center size 1 1 one_ne_zero 2
      have : t = s := Option.some.inj (ht.symm.trans hs)
      rw [this, (h E i).2 a ha, box_sides]
      rfl
    | plane pos width =>
      obtain ⟨s, hs, h⟩ := far_field (sh := sh) (sphere 4).points.get hr omega xyz d ⟨pos, width, 1⟩ 1 1 one_ne_zero 2
      have : t = s := Option.some.inj (ht.symm.trans hs)
      rw [this, (h E i).2 a ha]
      simp only [nearField, nearPlanes, List.map_cons, List.map_nil, List.sum_cons, List.sum_nil, add_zero]
  rw [key 1 (by decide), key 2 (by decide)]

/-- The hypotheses are met: the upper half of the directions. -/
example : Selects (sphere 4) (0, Real.pi / 2) (-Real.pi, Real.pi) (InRegionC (0, Real.pi / 2) (-Real.pi, Real.pi)) :=
  selects_region_wide (Or.inl ⟨4, rfl⟩) (by have := Real.pi_pos; simp; linarith) (by have := Real.pi_pos; simp; linarith)

end Verif.Far
