import Verif.Fdfd.PlanePowerProps
import Verif.Render.RegionProps
import Verif.Render.DirectionProps
import Mathlib.Algebra.BigOperators.Field
/-
Property C88: the power through two parallel planes differs by what the currents between them deliver.
-/
namespace Verif.Fdfd
open Matrix
variable {sh : Shape}

/-! ### Specification -/

/-- The whole cross-section of the grid at the index `s` along `axis`. -/
def wholePlane (sh : Shape) (axis : Fin 3) (s : Nat) : Slc :=
  ⟨fun a => if a = axis then s else 0, fun a => if a = axis then s + 1 else sh a⟩

/-! ### Lemmas -/

theorem inPlane_whole (axis : Fin 3) (s : Nat) (c : Cell sh) : InPlane (wholePlane sh axis s) c ↔ (c axis).val = s := by
  constructor
  · intro h
    have := h axis
    simp only [wholePlane, if_true] at this
    omega
  · intro h a
    by_cases ha : a = axis
    · subst ha
      simp only [wholePlane, if_true]
      omega
    · simp only [wholePlane, ha, if_false]
      exact ⟨Nat.zero_le _, (c a).isLt⟩

theorem prev_next_cell (a : Fin 3) (c : Cell sh) : prevCell a (nextCell a c) = c := by
  funext b
  apply Fin.ext
  by_cases h : b = a
  · subst h
    have hc := (c b).isLt
    simp only [nextCell, prevCell, if_true]
    rw [Nat.mod_add_mod]
    have : (c b).val + 1 + (sh b - 1) = (c b).val + sh b := by omega
    rw [this, Nat.add_mod_right, Nat.mod_eq_of_lt hc]
  · simp [nextCell, prevCell, h]

theorem eFull_unit (omega : ℂ) (d : Dxes) (eps : VField sh.size) :
    eFull sh omega d eps none none none 0 0 = eFull sh omega d eps (some fun _ => 1) none none 0 0 := by
  have : invMat (some fun _ : Fin 3 × Fin sh.size => (1 : ℂ)) = invMat none := by
    simp [invMat, Matrix.diagonal_one]
  unfold eFull
  rw [this]

theorem e2h_unit (omega : ℂ) (d : Dxes) :
    e2h sh omega d none none 0 0 = e2h sh omega d (some fun _ => 1) none 0 0 := by
  unfold e2h
  simp [Matrix.diagonal_one]

open Classical in
/-- What flows out of a layer of cells is what flows through its next face minus what flows through its last face. -/
theorem sum_layer (S : VField sh.size) (axis : Fin 3) (s : Nat) (hs : s + 1 < sh axis) :
    ∑ c : Cell sh with (c axis).val = s + 1, netFlux S c =
      ∑ c : Cell sh with (c axis).val = s + 1, S (axis, pos c) - ∑ c : Cell sh with (c axis).val = s, S (axis, pos c) := by
  have hside : ∀ a, a ≠ axis → ∑ c : Cell sh with (c axis).val = s + 1, (S (a, pos c) - S (a, pos (prevCell a c))) = 0 := by
    intro a ha
    rw [Finset.sum_sub_distrib, sub_eq_zero]
    refine Finset.sum_nbij' (nextCell a) (prevCell a) ?_ ?_ ?_ ?_ ?_
    · intro c hc
      simpa [nextCell, ha.symm] using hc
    · intro c hc
      simpa [prevCell, ha.symm] using hc
    · exact fun c _ => prev_next_cell a c
    · exact fun c _ => face_next_prev a c
    · intro c _
      rw [prev_next_cell]
  have hown : ∑ c : Cell sh with (c axis).val = s + 1, S (axis, pos (prevCell axis c)) =
      ∑ c : Cell sh with (c axis).val = s, S (axis, pos c) := by
    refine Finset.sum_nbij' (prevCell axis) (nextCell axis) ?_ ?_ ?_ ?_ ?_
    · intro c hc
      have hc' : (c axis).val = s + 1 := by simpa using hc
      have : (prevCell axis c axis).val = s := by
        simp only [prevCell, if_true, hc']
        rw [show s + 1 + (sh axis - 1) = s + sh axis by omega, Nat.add_mod_right, Nat.mod_eq_of_lt (by omega)]
      simpa using this
    · intro c hc
      have hc' : (c axis).val = s := by simpa using hc
      have : (nextCell axis c axis).val = s + 1 := by
        simp only [nextCell, if_true, hc']
        exact Nat.mod_eq_of_lt hs
      simpa using this
    · exact fun c _ => face_next_prev axis c
    · exact fun c _ => prev_next_cell axis c
    · intro c _; rfl
  simp only [netFlux]
  rw [Finset.sum_comm, Finset.sum_eq_single axis (fun a _ ha => hside a ha) (fun h => absurd (Finset.mem_univ _) h),
    Finset.sum_sub_distrib, hown]

/-! ### Theorems -/

open Classical in
/-- **C88.** On a uniform grid without absorbing layers, the power through two whole cross-sections differs by what the
currents in the cells between them deliver, if the permittivity is real there. In particular without currents between them
the same power passes through both. -/
theorem plane_power_balance (c : PlaneCfg) (w : Fin 3 → ℝ) (hw : ∀ a, w a ≠ 0) (hd : Uniform sh c.d w) (hl : c.wlen ≠ 0)
    (eps E J : VField sh.size) (A : Mat3 sh.size) (hA : eFull sh c.omega c.d eps none none none 0 0 = some A) (s t : Nat)
    (hst : s ≤ t) (ht : t < sh c.axis)
    (hE : ∀ q : Cell sh, s < (q c.axis).val → (q c.axis).val ≤ t →
      ∀ a, (A *ᵥ E) (a, pos q) = -Complex.I * c.omega * J (a, pos q) ∧ (eps (a, pos q)).im = 0) :
    ∃ ps pt, planePower { c with slices := wholePlane sh c.axis s } E = some ps ∧
      planePower { c with slices := wholePlane sh c.axis t } E = some pt ∧
      pt - ps = c.polarity * (-(w 0 * w 1 * w 2) / 2 *
        ∑ q : Cell sh with s < (q c.axis).val ∧ (q c.axis).val ≤ t, ∑ a, (E (a, pos q) * star (J (a, pos q))).re) := by
  rw [eFull_unit] at hA
  obtain ⟨_, T, _, hT, _⟩ := e2h_exists (sh := sh) c.d c.omega
  have hT' := hT
  rw [e2h_unit] at hT'
  obtain ⟨P, hP⟩ := chewE_exists c.d E
  have hω : (2 * Real.pi / c.wlen : ℝ) ≠ 0 := div_ne_zero (mul_ne_zero two_ne_zero Real.pi_ne_zero) hl
  have hbal : ∀ q : Cell sh, s < (q c.axis).val → (q c.axis).val ≤ t →
      (netFlux (P *ᵥ fun p => star ((T *ᵥ E) p)) q).re =
        -(w 0 * w 1 * w 2) * ∑ a, (E (a, pos q) * star (J (a, pos q))).re := by
    intro q h1 h2
    exact power_balance c.d w hw hd (2 * Real.pi / c.wlen) hω eps (fun _ => 1) (fun _ => one_ne_zero) A T P hA hT' E J q
      (fun a => (hE q h1 h2 a).1) (fun a => (hE q h1 h2 a).2) (fun _ => Complex.one_im) hP
  set S := P *ᵥ fun p => star ((T *ᵥ E) p) with hS
  have hSf : S = fluxForm c.d c.omega E E := chew_form hT hP
  have hval : ∀ k, planePower { c with slices := wholePlane sh c.axis k } E =
      some (c.polarity * ((∑ q : Cell sh with (q c.axis).val = k, S (c.axis, pos q)).re / 2)) := by
    intro k
    rw [plane_power_value]
    show some ((c.polarity : ℝ) * powerThrough c.d c.omega c.axis (wholePlane sh c.axis k) (asField E)) = _
    congr 2
    rw [powerThrough, Complex.re_sum, Finset.sum_div]
    refine Finset.sum_congr (Finset.filter_congr fun q _ => inPlane_whole c.axis k q) fun q _ => ?_
    rw [hSf, fluxForm, cellAt_pos]
  refine ⟨_, _, hval s, hval t, ?_⟩
  rw [← mul_sub, ← sub_div, ← Complex.sub_re]
  congr 1
  have key : (∑ q : Cell sh with (q c.axis).val = t, S (c.axis, pos q) -
      ∑ q : Cell sh with (q c.axis).val = s, S (c.axis, pos q)).re =
      -(w 0 * w 1 * w 2) * ∑ q : Cell sh with s < (q c.axis).val ∧ (q c.axis).val ≤ t,
        ∑ a, (E (a, pos q) * star (J (a, pos q))).re := by
    clear hE
    induction t, hst using Nat.le_induction with
    | base =>
      rw [sub_self, Complex.zero_re, Finset.filter_false_of_mem (fun q _ => by omega)]
      simp
    | succ t hst ih =>
      have ih' := ih (by omega) (fun q h1 h2 => hbal q h1 (by omega))
      have hl := sum_layer S c.axis t ht
      have hsum : ∑ q : Cell sh with s < (q c.axis).val ∧ (q c.axis).val ≤ t + 1,
          ∑ a, (E (a, pos q) * star (J (a, pos q))).re =
          (∑ q : Cell sh with s < (q c.axis).val ∧ (q c.axis).val ≤ t, ∑ a, (E (a, pos q) * star (J (a, pos q))).re) +
          ∑ q : Cell sh with (q c.axis).val = t + 1, ∑ a, (E (a, pos q) * star (J (a, pos q))).re := by
        rw [← Finset.sum_union (Finset.disjoint_filter.2 fun q _ h1 h2 => by omega)]
        refine Finset.sum_congr ?_ fun _ _ => rfl
        ext q
        simp only [Finset.mem_filter, Finset.mem_univ, true_and, Finset.mem_union]
        omega
      rw [hsum, mul_add, ← ih']
      have hlay : (∑ q : Cell sh with (q c.axis).val = t + 1, netFlux S q).re =
          -(w 0 * w 1 * w 2) * ∑ q : Cell sh with (q c.axis).val = t + 1, ∑ a, (E (a, pos q) * star (J (a, pos q))).re := by
        rw [Complex.re_sum, Finset.mul_sum]
        refine Finset.sum_congr rfl fun q hq => ?_
        have hq' : (q c.axis).val = t + 1 := by simpa using hq
        exact hbal q (by omega) (by omega)
      rw [← hlay, hl]
      simp only [Complex.sub_re]
      ring
  rw [key]
  ring

/-- A case that meets the hypotheses: every field, with the current it needs. -/
example (E : VField (Shape.size ![3, 2, 1])) : ∃ (A : Mat3 (Shape.size ![3, 2, 1])) (J : VField (Shape.size ![3, 2, 1])),
    Uniform ![3, 2, 1] unitDxes (fun _ => 1) ∧
    eFull ![3, 2, 1] (PlaneCfg.omega ⟨1, unitDxes, ⟨0, 0⟩, 0, 1⟩) unitDxes (fun _ => 2) none none none 0 0 = some A ∧
    ∀ a c, (A *ᵥ E) (a, pos c) = -Complex.I * (PlaneCfg.omega ⟨1, unitDxes, ⟨0, 0⟩, 0, 1⟩) * J (a, pos c) := by
  obtain ⟨⟨ce, hce⟩, ⟨ch, hch⟩⟩ := curl_defined ![3, 2, 1] unitDxes 0
  have hne : -Complex.I * (PlaneCfg.omega ⟨1, unitDxes, ⟨0, 0⟩, 0, 1⟩) ≠ 0 := by
    simp [PlaneCfg.omega, Real.pi_ne_zero]
  obtain ⟨A, hA⟩ : ∃ A, eFull ![3, 2, 1] (PlaneCfg.omega ⟨1, unitDxes, ⟨0, 0⟩, 0, 1⟩) unitDxes (fun _ => 2) none none none
      0 0 = some A := ⟨_, by simp only [eFull, hce, hch, Option.bind_some, Option.map_some]; rfl⟩
  refine ⟨A, fun p => (-Complex.I * (PlaneCfg.omega ⟨1, unitDxes, ⟨0, 0⟩, 0, 1⟩))⁻¹ * (A *ᵥ E) p,
    fun a i _ => by simp [unitDxes], hA, fun a c => ?_⟩
  rw [← mul_assoc, mul_inv_cancel₀ hne, one_mul]

/-! ### Planes of a plan -/

/-- **C88.** A plane of a plan: for a normal along the axis `i` and a box without extent along `i` which is centred in the cell number
`k` and lies in the grid, the power along `i` is summed over the layer number `k` of cells, with the sign of the normal. -/
theorem plane_created (edges : Fin 3 → List ℝ) (he : ∀ a, (edges a).Pairwise (· < ·)) (hn : ∀ a, 2 ≤ (edges a).length)
    (d : Dxes) (wlen : ℝ) (center extents : Fin 3 → ℝ) (i : Fin 3) (n : ℝ) (hn0 : n ≠ 0) (hx : extents i = 0) (k : Nat)
    (hk : k + 1 < (edges i).length) (h0 : (edges i).getD k 0 ≤ center i) (h1 : center i < (edges i).getD (k + 1) 0)
    (hin : ∀ a, a ≠ i → center a - extents a / 2 ≤ (edges a).getD ((edges a).length - 1) 0 ∧
      (edges a).getD 0 0 ≤ center a + extents a / 2) :
    ∃ c, createPlane edges d wlen center extents (Pi.single i n) = some c ∧ c.axis = i ∧ c.wlen = wlen ∧ c.d = d ∧
      c.polarity = (SignType.sign n : Int) ∧ c.slices.lo i = k ∧ c.slices.hi i = k + 1 ∧
      ∀ a, Render.regionSlice (edges a) (center a) (extents a) = some (c.slices.lo a, c.slices.hi a) := by
  have hall : ∀ a, ∃ s, Render.regionSlice (edges a) (center a) (extents a) = some s := by
    intro a
    rw [← Option.isSome_iff_exists, Option.isSome_iff_ne_none]
    by_cases ha : a = i
    · subst ha
      rw [hx, Render.region_plane (edges a) (he a) (center a) k hk h0 h1]
      exact Option.some_ne_none _
    · intro hr
      rw [Render.region_raises _ (he a) (hn a)] at hr
      obtain ⟨_, h | h⟩ := hr
      · exact absurd (hin a ha).1 (not_le.2 h)
      · exact absurd (hin a ha).2 (not_le.2 h)
  choose s hs using hall
  have hi : s i = (k, k + 1) := by
    have := hs i
    rw [hx, Render.region_plane (edges i) (he i) (center i) k hk h0 h1] at this
    exact (Option.some.inj this).symm
  obtain ⟨ha, hp⟩ := Render.axis_unit i n hn0
  have hlo : ∀ a, ![(s 0).1, (s 1).1, (s 2).1] a = (s a).1 := fun a => by fin_cases a <;> rfl
  have hhi : ∀ a, ![(s 0).2, (s 1).2, (s 2).2] a = (s a).2 := fun a => by fin_cases a <;> rfl
  refine ⟨⟨wlen, d, ⟨![(s 0).1, (s 1).1, (s 2).1], ![(s 0).2, (s 1).2, (s 2).2]⟩, i, SignType.sign n⟩, ?_, rfl, rfl, rfl, rfl,
    ?_, ?_, fun a => ?_⟩
  · rw [createPlane, regionSlices, hs 0, hs 1, hs 2]
    simp only [Option.bind_some, Option.map_some, ha, hp]
  · show ![(s 0).1, (s 1).1, (s 2).1] i = k
    rw [hlo, hi]
  · show ![(s 0).2, (s 1).2, (s 2).2] i = k + 1
    rw [hhi, hi]
  · show _ = some (![(s 0).1, (s 1).1, (s 2).1] a, ![(s 0).2, (s 1).2, (s 2).2] a)
    rw [hlo, hhi, hs a]

/-- A case that meets the hypotheses: the second layer of two along the first axis, and a box over the whole cross-section. -/
example : (∀ a : Fin 3, ((fun _ => [0, 1, 2] : Fin 3 → List ℝ) a).Pairwise (· < ·)) ∧ ((-2 : ℝ) ≠ 0) ∧
    (([0, 1, 2] : List ℝ).getD 1 0 ≤ 3 / 2) ∧ ((3 / 2 : ℝ) < ([0, 1, 2] : List ℝ).getD (1 + 1) 0) ∧
    ((1 : ℝ) - 2 / 2 ≤ ([0, 1, 2] : List ℝ).getD 2 0 ∧ ([0, 1, 2] : List ℝ).getD 0 0 ≤ (1 : ℝ) + 2 / 2) := by
  refine ⟨fun _ => ?_, ?_, ?_, ?_, ?_, ?_⟩ <;> norm_num

/-- **C88.** The opposite normal gives the opposite power. -/
theorem plane_opposite (edges : Fin 3 → List ℝ) (d : Dxes) (wlen : ℝ) (center extents normal : Fin 3 → ℝ) (c : PlaneCfg)
    (hc : createPlane edges d wlen center extents normal = some c) (E : VField sh.size) :
    ∃ c' p, createPlane edges d wlen center extents (fun a => -1 * normal a) = some c' ∧ planePower c E = some p ∧
      planePower c' E = some (-p) := by
  obtain ⟨h1, h2⟩ := Render.axis_scaled (-1) (by norm_num) normal
  simp only [createPlane, Option.bind_eq_some_iff, Option.map_eq_some_iff] at hc
  obtain ⟨sl, hsl, axis, hax, pol, hpol, rfl⟩ := hc
  refine ⟨⟨wlen, d, sl, axis, ((SignType.sign (-1 : ℝ) * pol : SignType) : Int)⟩, _, ?_, plane_power_value _ E, ?_⟩
  · rw [createPlane, hsl, h1, hax, h2, hpol]
    rfl
  · rw [plane_power_value]
    show some ((((SignType.sign (-1 : ℝ) * pol : SignType) : Int) : ℝ) * powerThrough d _ axis sl (asField E)) =
      some (-((((pol : SignType) : Int) : ℝ) * powerThrough d _ axis sl (asField E)))
    have : (((SignType.sign (-1 : ℝ) * pol : SignType) : Int) : ℝ) = -(((pol : SignType) : Int) : ℝ) := by
      rw [sign_neg (by norm_num : (-1 : ℝ) < 0)]
      cases pol <;> simp
    rw [this, neg_mul]
    rfl

end Verif.Fdfd
