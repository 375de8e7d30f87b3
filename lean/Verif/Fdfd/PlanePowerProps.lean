import Verif.Fdfd.PlanePower
import Verif.Fdfd.AdjointProps
import Verif.Fdfd.PoyntingProps
import Mathlib.Analysis.Calculus.FDeriv.CompCLM
import Mathlib.LinearAlgebra.Eigenspace.Minpoly
/-
Property C88: the power through a plane and its gradient.
-/
namespace Verif.Fdfd
open Matrix
variable {sh : Shape}

/-! ### Specification -/

/-- The magnetic field of an electric field, without materials: the curl of forward differences divided by `-iω`. -/
noncomputable def magneticOf (d : Dxes) (omega : ℂ) (e : FieldT sh) : FieldT sh := fun a c =>
  (fwdDiff d.e 0 (a + 1) (e (a + 2)) c - fwdDiff d.e 0 (a + 2) (e (a + 1)) c) / (-Complex.I * omega)

/-- The cells of the plane. -/
def InPlane (sl : Slc) (c : Cell sh) : Prop := ∀ a, sl.lo a ≤ (c a).val ∧ (c a).val < sl.hi a

open Classical in
/-- Half of the real part of the flux of `E × H*` along `axis`, summed over the cells of the plane. -/
noncomputable def powerThrough (d : Dxes) (omega : ℂ) (axis : Fin 3) (sl : Slc) (e : FieldT sh) : ℝ :=
  ∑ c : Cell sh with InPlane sl c, (flux d e (fun a c => star (magneticOf d omega e a c)) axis c).re / 2

/-- A field as a function of component and cell. -/
def asField (E : VField sh.size) : FieldT sh := fun a c => E (a, pos c)

/-! ### Lemmas -/

theorem asField_isVec (E : VField sh.size) : IsVec (asField E) E := fun _ _ => rfl

theorem chewE_exists (d : Dxes) (E : VField sh.size) : ∃ P, poyntingChewECross sh E d = some P :=
  ⟨_, by rw [poyntingChewECross, shifts_zero, Option.map_some]⟩

theorem chewH_exists (d : Dxes) (H : VField sh.size) : ∃ P, poyntingChewHCross sh H d = some P :=
  ⟨_, by rw [poyntingChewHCross, shifts_zero, Option.map_some]⟩

/-- `e2h` without materials. -/
theorem e2h_exists (d : Dxes) (omega : ℂ) : ∃ C T : Mat3 sh.size, curlE sh d 0 0 = some C ∧
    e2h sh omega d none none 0 0 = some T ∧ T = (1 / (-Complex.I * omega)) • C := by
  obtain ⟨⟨C, hC⟩, _⟩ := curl_defined sh d 0
  exact ⟨C, _, hC, by simp only [e2h, hC, Option.map_some], rfl⟩

theorem e2h_magnetic {d : Dxes} {omega : ℂ} {T : Mat3 sh.size} (hT : e2h sh omega d none none 0 0 = some T)
    (E : VField sh.size) : IsVec (magneticOf d omega (asField E)) (T *ᵥ E) := by
  obtain ⟨C, T', hC, hT', rfl⟩ := e2h_exists (sh := sh) d omega
  rw [hT] at hT'
  cases hT'
  intro a c
  obtain ⟨h0, h1, h2⟩ := curl_e_pointwise d 0 C hC _ E (asField_isVec E) c
  rw [Matrix.smul_mulVec, Pi.smul_apply, smul_eq_mul, one_div, magneticOf, div_eq_inv_mul]
  congr 1
  match a with
  | 0 => exact h0
  | 1 => exact h1
  | 2 => exact h2

/-- The sesquilinear form of the Poynting vector: the flux of `E × H(K)*`. -/
noncomputable def fluxForm (d : Dxes) (omega : ℂ) (E K : VField sh.size) (p : Fin 3 × Fin sh.size) : ℂ :=
  flux d (asField E) (fun a c => star (magneticOf d omega (asField K) a c)) p.1 (cellAt p.2)

theorem chew_form {d : Dxes} {omega : ℂ} {E K : VField sh.size} {T P : Mat3 sh.size}
    (hT : e2h sh omega d none none 0 0 = some T) (hP : poyntingChewECross sh E d = some P) :
    (P *ᵥ fun q => star ((T *ᵥ K) q)) = fluxForm d omega E K := by
  have h := chew_e_pointwise d (asField E) (fun a c => star (magneticOf d omega (asField K) a c)) E
    (fun q => star ((T *ᵥ K) q)) (asField_isVec E) (fun a c => congrArg star (e2h_magnetic hT K a c)) P hP
  funext ⟨a, i⟩
  obtain ⟨c, rfl⟩ := pos_bijective.2 i
  rw [h a c, fluxForm, cellAt_pos]

theorem fluxForm_add_left (d : Dxes) (omega : ℂ) (E E' K : VField sh.size) :
    fluxForm d omega (E + E') K = fluxForm d omega E K + fluxForm d omega E' K := by
  funext p
  simp only [fluxForm, flux, asField, Pi.add_apply]
  ring

theorem fluxForm_smul_left (d : Dxes) (omega : ℂ) (r : ℝ) (E K : VField sh.size) :
    fluxForm d omega (r • E) K = r • fluxForm d omega E K := by
  funext p
  simp only [fluxForm, flux, asField, Pi.smul_apply, Complex.real_smul]
  ring

theorem magnetic_add (d : Dxes) (omega : ℂ) (K K' : VField sh.size) (a : Fin 3) (c : Cell sh) :
    magneticOf d omega (asField (K + K')) a c = magneticOf d omega (asField K) a c + magneticOf d omega (asField K') a c := by
  simp only [magneticOf, fwdDiff, asField, Pi.add_apply]
  ring

theorem magnetic_smul (d : Dxes) (omega : ℂ) (r : ℝ) (K : VField sh.size) (a : Fin 3) (c : Cell sh) :
    magneticOf d omega (asField (r • K)) a c = r * magneticOf d omega (asField K) a c := by
  simp only [magneticOf, fwdDiff, asField, Pi.smul_apply, Complex.real_smul]
  ring

theorem fluxForm_add_right (d : Dxes) (omega : ℂ) (E K K' : VField sh.size) :
    fluxForm d omega E (K + K') = fluxForm d omega E K + fluxForm d omega E K' := by
  funext p
  simp only [fluxForm, flux, magnetic_add, star_add, Pi.add_apply]
  ring

theorem fluxForm_smul_right (d : Dxes) (omega : ℂ) (r : ℝ) (E K : VField sh.size) :
    fluxForm d omega E (r • K) = r • fluxForm d omega E K := by
  funext p
  have : ∀ z : ℂ, star ((r : ℂ) * z) = r * star z := fun z => by
    rw [star_mul', show star (r : ℂ) = r from Complex.conj_ofReal r]
  simp only [fluxForm, flux, magnetic_smul, this, Pi.smul_apply, Complex.real_smul]
  ring

/-- The value in terms of the form. -/
theorem planePower_form (c : PlaneCfg) (E : VField sh.size) :
    planePower c E = some ((c.polarity : ℝ) * ∑ p, 0.5 * (fluxForm c.d c.omega E E p).re * (filterVec sh c p).re) := by
  obtain ⟨C, T, hC, hT, _⟩ := e2h_exists (sh := sh) c.d c.omega
  obtain ⟨P, hP⟩ := chewE_exists c.d E
  simp only [planePower, hT, hP, Option.bind_some, Option.map_some, chew_form hT hP]

/-- The gradient paired with a change of the field, in terms of the form. -/
theorem planeGrad_form (c : PlaneCfg) (hd : ∀ a i, star (c.d.e a i) = c.d.e a i) (E : VField sh.size) (v : ℂ) :
    ∃ g, planeGrad c E v = some g ∧ ∀ w : VField sh.size, ∑ p, g p * w p =
      v * c.polarity * ∑ p, filterVec sh c p * (1 / 4 * (star (fluxForm c.d c.omega E w p) + fluxForm c.d c.omega w E p)) := by
  obtain ⟨C, T, hC, hT, hTC⟩ := e2h_exists (sh := sh) c.d c.omega
  obtain ⟨P, hP⟩ := chewE_exists c.d E
  obtain ⟨Q, hQ⟩ := chewH_exists c.d (T *ᵥ E)
  refine ⟨_, by simp only [planeGrad, hT, hC, hP, hQ, Option.bind_some, Option.map_some]; rfl, fun w => ?_⟩
  show (_ ᵥ* _) ⬝ᵥ w = _
  rw [← Matrix.dotProduct_mulVec, smul_dotProduct, smul_eq_mul]
  congr 1
  refine Finset.sum_congr rfl fun p _ => ?_
  congr 1
  obtain ⟨P', hP'⟩ := chewE_exists c.d w
  have h1 : (Q.map star) *ᵥ w = -fluxForm c.d c.omega w E := by
    rw [← chew_form hT hP', chew_agree c.d hd w (T *ᵥ E) P' Q hP' hQ, neg_neg]
  have h2 : (P.map star) *ᵥ (T *ᵥ w) = fun q => star (fluxForm c.d c.omega E w q) := by
    rw [← chew_form hT hP]
    funext q
    simp only [Matrix.mulVec, dotProduct, Matrix.map_apply, star_sum, star_mul', star_star]
  have h3 : (1 / (Complex.I * c.omega * 1)) • ((P.map star) *ᵥ (C *ᵥ w)) = fun q => -star (fluxForm c.d c.omega E w q) := by
    rw [← Pi.neg_def, ← h2, hTC, Matrix.smul_mulVec, Matrix.mulVec_smul, ← neg_smul]
    congr 1
    rw [mul_one, neg_mul, div_neg, neg_neg]
  rw [Matrix.smul_mulVec, Matrix.add_mulVec, Matrix.smul_mulVec, ← Matrix.mulVec_mulVec, h3, h1]
  simp only [Pi.smul_apply, Pi.add_apply, Pi.neg_apply, smul_eq_mul]
  ring

theorem planePower_double (c : PlaneCfg) (E : VField sh.size) (F : ℝ) (h : planePower c E = some F) :
    planePower c (E + E) = some (4 * F) := by
  rw [planePower_form, Option.some.injEq] at h ⊢
  rw [← h, fluxForm_add_left, fluxForm_add_right, mul_left_comm]
  congr 1
  rw [Finset.mul_sum (a := (4 : ℝ))]
  refine Finset.sum_congr rfl fun p _ => ?_
  simp only [Pi.add_apply, Complex.add_re]
  ring

theorem filterVec_real (c : PlaneCfg) (p : Fin 3 × Fin sh.size) : filterVec sh c p = ((filterVec sh c p).re : ℂ) := by
  unfold filterVec
  split_ifs <;> simp

/-! ### The value -/

/-- **C88.** The value is the power through the plane: with the sign of the polarity, half of the real part of the flux of
`E × H*` summed over the cells of the plane. -/
theorem plane_power_value (c : PlaneCfg) (E : VField sh.size) :
    planePower c E = some (c.polarity * powerThrough c.d c.omega c.axis c.slices (asField E)) := by
  classical
  rw [planePower_form, Option.some.injEq, Fintype.sum_prod_type]
  congr 1
  rw [Finset.sum_eq_single c.axis (fun b _ hb => ?_) (fun h => absurd (Finset.mem_univ _) h)]
  · rw [← (cellEquiv sh).sum_comp, powerThrough, Finset.sum_filter]
    refine Finset.sum_congr rfl fun q _ => ?_
    rw [cellEquiv_apply]
    have : (filterVec sh c (c.axis, pos q)).re = if InPlane c.slices q then 1 else 0 := by
      simp only [filterVec, true_and, cellAt_pos]
      by_cases h : InPlane c.slices q
      · rw [if_pos h, if_pos (show ∀ a, _ from h)]; rfl
      · rw [if_neg h, if_neg (show ¬ ∀ a, _ from h)]; rfl
    rw [this, fluxForm, cellAt_pos]
    split_ifs <;> ring
  · refine Finset.sum_eq_zero fun i _ => ?_
    simp [filterVec, hb]

/-! ### The gradient -/

/-- **C88.** The gradient is exact to second order: for every field and every change of it, the power changes by twice the real part of
the gradient times the change, plus the power of the change. -/
theorem plane_power_expansion (c : PlaneCfg) (hd : ∀ a i, star (c.d.e a i) = c.d.e a i) (E : VField sh.size) :
    ∃ g F, planeGrad c E 1 = some g ∧ planePower c E = some F ∧ ∀ w : VField sh.size, ∃ Fw,
      planePower c w = some Fw ∧ planePower c (E + w) = some (F + (∑ p, 2 * (g p * w p).re) + Fw) := by
  obtain ⟨g, hg, hgw⟩ := planeGrad_form c hd E 1
  refine ⟨g, _, hg, planePower_form c E, fun w => ⟨_, planePower_form c w, ?_⟩⟩
  rw [planePower_form, Option.some.injEq]
  have h1 : ∑ p, 2 * (g p * w p).re = (c.polarity : ℝ) * ∑ p, 0.5 *
      ((fluxForm c.d c.omega E w p).re + (fluxForm c.d c.omega w E p).re) * (filterVec sh c p).re := by
    rw [← Finset.mul_sum, ← Complex.re_sum, hgw w, one_mul]
    have : (c.polarity : ℂ) = ((c.polarity : ℝ) : ℂ) := by push_cast; rfl
    rw [this, Complex.re_ofReal_mul, Complex.re_sum, mul_left_comm, Finset.mul_sum]
    congr 1
    refine Finset.sum_congr rfl fun p _ => ?_
    rw [filterVec_real, Complex.re_ofReal_mul, Complex.ofReal_re]
    have e : (1 / 4 : ℂ) = ((1 / 4 : ℝ) : ℂ) := by push_cast; rfl
    rw [e, Complex.re_ofReal_mul, Complex.add_re, show (star (fluxForm c.d c.omega E w p)).re =
      (fluxForm c.d c.omega E w p).re from Complex.conj_re _]
    ring
  rw [h1, ← mul_add, ← mul_add, ← Finset.sum_add_distrib, ← Finset.sum_add_distrib]
  congr 1
  refine Finset.sum_congr rfl fun p _ => ?_
  rw [fluxForm_add_left, fluxForm_add_right, fluxForm_add_right]
  simp only [Pi.add_apply, Complex.add_re]
  ring

/-- The power as a bilinear form over the reals. -/
noncomputable def powerForm (sh : Shape) (c : PlaneCfg) : VField sh.size →ₗ[ℝ] VField sh.size →ₗ[ℝ] ℝ :=
  LinearMap.mk₂ ℝ (fun E K => (c.polarity : ℝ) * ∑ p, 0.5 * (fluxForm c.d c.omega E K p).re * (filterVec sh c p).re)
    (fun E E' K => by
      rw [fluxForm_add_left, ← mul_add, ← Finset.sum_add_distrib]
      congr 1
      refine Finset.sum_congr rfl fun p _ => ?_
      rw [Pi.add_apply, Complex.add_re]; ring)
    (fun r E K => by
      rw [fluxForm_smul_left, smul_eq_mul, mul_left_comm, Finset.mul_sum (s := Finset.univ) (a := r)]
      congr 1
      refine Finset.sum_congr rfl fun p _ => ?_
      rw [Pi.smul_apply, Complex.real_smul, Complex.re_ofReal_mul]; ring)
    (fun E K K' => by
      rw [fluxForm_add_right, ← mul_add, ← Finset.sum_add_distrib]
      congr 1
      refine Finset.sum_congr rfl fun p _ => ?_
      rw [Pi.add_apply, Complex.add_re]; ring)
    (fun r E K => by
      rw [fluxForm_smul_right, smul_eq_mul, mul_left_comm, Finset.mul_sum (s := Finset.univ) (a := r)]
      congr 1
      refine Finset.sum_congr rfl fun p _ => ?_
      rw [Pi.smul_apply, Complex.real_smul, Complex.re_ofReal_mul]; ring)

theorem powerForm_self (c : PlaneCfg) (E : VField sh.size) : planePower c E = some (powerForm sh c E E) :=
  planePower_form c E

/-- **C88.** The derivative of the power with respect to the field: `dF = 2 Re Σ g_p dE_p` for the returned gradient. -/
theorem plane_power_deriv (c : PlaneCfg) (hd : ∀ a i, star (c.d.e a i) = c.d.e a i) (E : VField sh.size) (v : ℝ) :
    ∃ g, planeGrad c E v = some g ∧ ∃ L : VField sh.size →L[ℝ] ℝ, (∀ w, L w = ∑ p, 2 * (g p * w p).re) ∧
      HasFDerivAt (fun E' => v * (planePower c E').getD 0) L E := by
  obtain ⟨g1, F, hg1, hF, hexp⟩ := plane_power_expansion c hd E
  obtain ⟨g, hg, hgw⟩ := planeGrad_form c hd E v
  obtain ⟨g1', hg1', hgw1⟩ := planeGrad_form c hd E 1
  rw [hg1] at hg1'
  cases hg1'
  let B : VField sh.size →L[ℝ] VField sh.size →L[ℝ] ℝ :=
    LinearMap.toContinuousLinearMap (LinearMap.toContinuousLinearMap.toLinearMap ∘ₗ powerForm sh c)
  have hB : ∀ E K, B E K = powerForm sh c E K := fun _ _ => rfl
  have hval : ∀ E', (planePower c E').getD 0 = B E' E' := fun E' => by rw [powerForm_self]; rfl
  have h := ((B.hasFDerivAt (x := E)).clm_apply (hasFDerivAt_id E)).const_mul v
  refine ⟨g, hg, _, fun w => ?_, h.congr_of_eventuallyEq (Filter.Eventually.of_forall fun E' => ?_)⟩
  · show v * (B E w + B w E) = _
    obtain ⟨Fw, hFw, he⟩ := hexp w
    have e1 : B E E = F := by
      have := powerForm_self c E
      rw [hF, Option.some.injEq] at this
      exact this.symm
    have e2 : B w w = Fw := by
      have := powerForm_self c w
      rw [hFw, Option.some.injEq] at this
      exact this.symm
    have e3 : B (E + w) (E + w) = F + (∑ p, 2 * (g1 p * w p).re) + Fw := by
      have := powerForm_self c (E + w)
      rw [he, Option.some.injEq] at this
      exact this.symm
    have e4 : B (E + w) (E + w) = B E E + (B E w + B w E) + B w w := by
      simp only [map_add, _root_.add_apply]
      ring
    have e5 : B E w + B w E = ∑ p, 2 * (g1 p * w p).re := by linarith
    rw [e5]
    have hsum : ∀ q : VField sh.size, ∑ p, 2 * (q p * w p).re = 2 * (∑ p, q p * w p).re := fun q => by
      rw [← Finset.mul_sum, ← Complex.re_sum]
    rw [hsum, hsum, hgw, hgw1, one_mul, mul_assoc, Complex.re_ofReal_mul]
    ring
  · show v * _ = v * _
    rw [hval E']; rfl

/-- **C88.** Through a simulation: the gradient with respect to the permittivity that a plan gets for the power is exactly one
half of the derivative, since `FdfdSimulation.grad` takes gradients with `dF = Re Σ g_p dE_p`. For a complex permittivity. -/
theorem power_gradient_half {s : SimCfg sh} (h : GoodSim s) (c : PlaneCfg) (hd : ∀ a i, star (c.d.e a i) = c.d.e a i)
    (eps : VField sh.size) {A : Mat3 sh.size} (hA : waveOp s eps = some A) (hu : IsUnit A.det) :
    ∃ fields g G, simFields s eps = some fields ∧ planeGrad c fields 1 = some g ∧ invdesGrad s eps g false = some G ∧
      ∃ L' : VField sh.size →L[ℝ] ℝ, (∀ v, L' v = 2 * ∑ p, (G p * v p).re) ∧
        HasFDerivAt (fun e => (planePower c ((simFields s e).getD 0)).getD 0) L' eps := by
  obtain ⟨K, hK, hsol⟩ := sim_system h
  obtain ⟨fields, hf, _⟩ := hsol eps s.J false
  obtain ⟨g, hg, L, hL, hF⟩ := plane_power_deriv c hd fields 1
  rw [Complex.ofReal_one] at hg
  obtain ⟨G, hG, L', hL', hF'⟩ := invdes_grad_exact h eps hA hu (fun E' => 1 / 2 * (1 * (planePower c E').getD 0)) g
    ((1 / 2 : ℝ) • L) (fun v => by
      show 1 / 2 * L v = _
      rw [hL, Finset.mul_sum]
      exact Finset.sum_congr rfl fun p _ => by ring)
    (fun o ho => by
      have : o = fields := by
        rw [show simFields s eps = some fields from hf] at ho
        exact (Option.some.inj ho).symm
      rw [this]
      exact hF.const_mul (1 / 2))
  refine ⟨fields, g, G, hf, hg, hG, (2 : ℝ) • L', fun v => ?_, ?_⟩
  · show 2 * L' v = _
    rw [hL']
  · refine (hF'.const_mul 2).congr_of_eventuallyEq (Filter.Eventually.of_forall fun e => ?_)
    show _ = 2 * (1 / 2 * (1 * _))
    ring

/-- **C88.** The same for a real permittivity. -/
theorem power_gradient_half_real {s : SimCfg sh} (h : GoodSim s) (c : PlaneCfg) (hd : ∀ a i, star (c.d.e a i) = c.d.e a i)
    (eps : Fin 3 × Fin sh.size → ℝ) {A : Mat3 sh.size} (hA : waveOp s (fun p => (eps p : ℂ)) = some A) (hu : IsUnit A.det) :
    ∃ fields g G, simFields s (fun p => (eps p : ℂ)) = some fields ∧ planeGrad c fields 1 = some g ∧
      invdesGrad s (fun p => (eps p : ℂ)) g true = some G ∧ (∀ p, (G p).im = 0) ∧
      ∃ L' : (Fin 3 × Fin sh.size → ℝ) →L[ℝ] ℝ, (∀ v, L' v = 2 * ∑ p, (G p).re * v p) ∧
        HasFDerivAt (fun e : Fin 3 × Fin sh.size → ℝ => (planePower c ((simFields s (fun p => (e p : ℂ))).getD 0)).getD 0)
          L' eps := by
  obtain ⟨K, hK, hsol⟩ := sim_system h
  obtain ⟨fields, hf, _⟩ := hsol (fun p => (eps p : ℂ)) s.J false
  obtain ⟨g, hg, L, hL, hF⟩ := plane_power_deriv c hd fields 1
  rw [Complex.ofReal_one] at hg
  obtain ⟨G, hG, hGr, L', hL', hF'⟩ := invdes_grad_exact_real h eps hA hu
    (fun E' => 1 / 2 * (1 * (planePower c E').getD 0)) g ((1 / 2 : ℝ) • L) (fun v => by
      show 1 / 2 * L v = _
      rw [hL, Finset.mul_sum]
      exact Finset.sum_congr rfl fun p _ => by ring)
    (fun o ho => by
      have : o = fields := by
        rw [show simFields s (fun p => (eps p : ℂ)) = some fields from hf] at ho
        exact (Option.some.inj ho).symm
      rw [this]
      exact hF.const_mul (1 / 2))
  refine ⟨fields, g, G, hf, hg, hG, hGr, (2 : ℝ) • L', fun v => ?_, ?_⟩
  · show 2 * L' v = _
    rw [hL']
  · refine (hF'.const_mul 2).congr_of_eventuallyEq (Filter.Eventually.of_forall fun e => ?_)
    show _ = 2 * (1 / 2 * (1 * _))
    ring

/-! ### The gradient of a plan is wrong by a factor of two -/

open Classical in
/-- A simulation of eight cells with the current `J` and an exact solver. -/
noncomputable def eightCells (J : VField (Shape.size ![2, 2, 2])) : SimCfg ![2, 2, 2] :=
  ⟨twoCells, ⟨0, 0⟩, 1, .scalar 1, none, J, fun A b => if h : ∃ x, A *ᵥ x = b then h.choose else 0⟩

theorem eightCells_good (J : VField (Shape.size ![2, 2, 2])) : GoodSim (eightCells J) := by
  have hr : ∀ a, twoCells.read 0 a = [1, 1] := fun _ => rfl
  have hpos : ∀ (a : Fin 3), ∀ x ∈ twoCells.read 0 a, x.im = 0 ∧ 0 < x.re := by
    intro a x hx
    rw [hr] at hx
    have : x = 1 := by simpa using hx
    subst this
    simp
  refine ⟨?_, twoCells_allocated, ⟨fun _ => rfl, hpos, hpos⟩, ?_, one_pos, fun A b h => ?_⟩
  · intro a
    match a with
    | 0 => rfl
    | 1 => rfl
    | 2 => rfl
  · intro a
    show max 0 (1 : Int) + max 0 1 ≤ ((twoCells.read 0 a).length : Int)
    rw [hr]; decide
  · simp only [eightCells, dif_pos h]
    exact h.choose_spec

/-- The plane between the two layers of cells along the first axis. -/
noncomputable def middlePlane : PlaneCfg := ⟨1, gridOf twoCells ⟨0, 0⟩, ⟨![0, 0, 0], ![1, 2, 2]⟩, 0, 1⟩

theorem middlePlane_e (a : Fin 3) (i : Fin 2) : middlePlane.d.e a i = 1 := by
  show ([1, 1] : List ℂ).getD i 0 = 1
  fin_cases i <;> rfl

theorem middlePlane_real (a : Fin 3) (i : Nat) : star (middlePlane.d.e a i) = middlePlane.d.e a i := by
  show star (([1, 1] : List ℂ).getD i 0) = ([1, 1] : List ℂ).getD i 0
  match i with
  | 0 => exact star_one _
  | 1 => exact star_one _
  | n + 2 => exact star_zero _

/-- A field with a phase between the two layers. -/
noncomputable def turned : FieldT ![2, 2, 2] := fun a c => if a = 1 ∧ (c 0).val = 1 then Complex.I else 1

noncomputable def turnedVec : VField (Shape.size ![2, 2, 2]) := fun p => turned p.1 (cellAt p.2)

theorem turnedVec_field : asField turnedVec = turned := by
  funext a c
  simp [asField, turnedVec]

theorem turned_power : powerThrough middlePlane.d middlePlane.omega 0 middlePlane.slices (asField turnedVec) ≠ 0 := by
  classical
  rw [turnedVec_field, powerThrough]
  have hω : (middlePlane.omega).re ≠ 0 ∧ (middlePlane.omega).im = 0 := by
    constructor
    · simp [PlaneCfg.omega, middlePlane, Real.pi_ne_zero]
    · exact Complex.ofReal_im _
  have hw : middlePlane.omega = ((middlePlane.omega).re : ℂ) := Complex.ext rfl (by simp [hω.2])
  have key : ∀ c : Cell ![2, 2, 2], InPlane middlePlane.slices c → (flux middlePlane.d turned
      (fun a c => star (magneticOf middlePlane.d middlePlane.omega turned a c)) 0 c).re / 2 = -1 / (2 * middlePlane.omega.re) := by
    intro c hc
    have h0 : (c 0).val = 0 := by
      have := (hc 0).2
      simp only [middlePlane, Matrix.cons_val_zero] at this
      omega
    have n1 : (nextCell 0 c 0).val = 1 := by simp [nextCell, h0]
    have n0 : ∀ a, a ≠ 0 → (nextCell a c 0).val = 0 := by
      intro a ha
      simp [nextCell, ha.symm, h0]
    have he : ∀ a, middlePlane.d.e a (c a) = 1 := by
      intro a
      match a with
      | 0 => exact middlePlane_e 0 (c 0)
      | 1 => exact middlePlane_e 1 (c 1)
      | 2 => exact middlePlane_e 2 (c 2)
    have fw : ∀ (f : Cell ![2, 2, 2] → ℂ) a, fwdDiff middlePlane.d.e 0 a f c = f (nextCell a c) - f c := by
      intro f a; simp [fwdDiff, upPhase, he]
    simp only [flux, faceArea, magneticOf, fw, Fin.isValue, show (0 : Fin 3) + 1 = 1 from rfl,
      show (0 : Fin 3) + 2 = 2 from rfl, show (1 : Fin 3) + 1 = 2 from rfl, show (1 : Fin 3) + 2 = 0 from rfl,
      show (2 : Fin 3) + 1 = 0 from rfl, show (2 : Fin 3) + 2 = 1 from rfl]
    have t1 : turned 1 (nextCell 0 c) = Complex.I := by simp [turned, n1]
    have t2 : turned 1 c = 1 := by simp [turned, h0]
    have t3 : ∀ a c, a ≠ 1 → turned a c = 1 := by intro a c ha; simp [turned, ha]
    rw [t1, t2, t3 0 _ (by decide), t3 0 _ (by decide), t3 2 _ (by decide), t3 2 _ (by decide), t3 0 _ (by decide)]
    rw [hw]
    generalize middlePlane.omega.re = w at hω
    have hw0 : (w : ℂ) ≠ 0 := Complex.ofReal_ne_zero.2 hω.1
    have e : (1 : ℂ) * 1 * (Complex.I * star ((Complex.I - 1 - (1 - 1)) / (-Complex.I * (w : ℂ))) -
        1 * star ((1 - 1 - (1 - 1)) / (-Complex.I * (w : ℂ)))) = ((-1 / w : ℝ) : ℂ) + ((-1 / w : ℝ) : ℂ) * Complex.I := by
      have s1 : star (w : ℂ) = w := Complex.conj_ofReal w
      have s2 : star Complex.I = -Complex.I := Complex.conj_I
      simp only [star_div₀, star_sub, star_mul', star_neg, star_one, s1, s2]
      push_cast
      have := Complex.I_ne_zero
      field_simp
      ring
    have a1 : middlePlane.d.e 1 (c (0 + 1)) = 1 := he 1
    have a2 : middlePlane.d.e 2 (c (0 + 2)) = 1 := he 2
    rw [a1, a2, e, Complex.add_re, Complex.ofReal_re, Complex.re_ofReal_mul, Complex.I_re]
    have := hω.1
    field_simp
    ring
  rw [Finset.sum_congr rfl fun c hc => key c (Finset.mem_filter.1 hc).2, Finset.sum_const, nsmul_eq_mul]
  refine mul_ne_zero ?_ (div_ne_zero (by norm_num) (mul_ne_zero two_ne_zero hω.1))
  rw [Nat.cast_ne_zero, Finset.card_ne_zero]
  refine ⟨fun a => ⟨0, by fin_cases a <;> decide⟩, Finset.mem_filter.2 ⟨Finset.mem_univ _, fun a => ?_⟩⟩
  fin_cases a <;> simp [middlePlane]

/-- **C88** is false through a simulation: a plan does not get the derivative of the power with respect to the permittivity, in
the convention `dF = Re Σ G_p dε_p` in which the simulation is right (C22). -/
theorem power_gradient_false : ¬ ∀ (sh : Shape) (s : SimCfg sh) (c : PlaneCfg) (eps : VField sh.size) (A : Mat3 sh.size)
    (fields g G : VField sh.size), GoodSim s → (∀ a i, star (c.d.e a i) = c.d.e a i) → waveOp s eps = some A →
    IsUnit A.det → simFields s eps = some fields → planeGrad c fields 1 = some g → invdesGrad s eps g false = some G →
    ∃ L' : VField sh.size →L[ℝ] ℝ, (∀ v, L' v = ∑ p, (G p * v p).re) ∧
      HasFDerivAt (fun e => (planePower c ((simFields s e).getD 0)).getD 0) L' eps := by
  intro H
  obtain ⟨K, hK, _⟩ := sim_system (eightCells_good 0)
  have hω0 : (eightCells 0).omega ≠ 0 := by
    intro h0
    have := omega_pos (eightCells_good 0).wlen
    rw [h0] at this
    simp at this
  -- a permittivity for which the system has one solution
  obtain ⟨x, hx⟩ : ∃ x : ℂ, x ∉ spectrum ℂ K := (Matrix.finite_spectrum K).exists_notMem
  have hunit : IsUnit (K - (eightCells 0).omega ^ 2 • Matrix.diagonal (fun _ => x / (eightCells 0).omega ^ 2)).det := by
    rw [spectrum.notMem_iff] at hx
    have e : K - (eightCells 0).omega ^ 2 • Matrix.diagonal (fun _ => x / (eightCells 0).omega ^ 2) =
        -(algebraMap ℂ (Mat3 (Shape.size ![2, 2, 2])) x - K) := by
      rw [neg_sub, Matrix.algebraMap_eq_diagonal]
      congr 1
      rw [← Matrix.diagonal_smul]
      congr 1
      funext p
      simp only [Pi.smul_apply, smul_eq_mul, Pi.algebraMap_apply, Algebra.algebraMap_self, RingHom.id_apply]
      field_simp
    rw [e]
    exact (Matrix.isUnit_iff_isUnit_det _).1 hx.neg
  set eps : VField (Shape.size ![2, 2, 2]) := fun _ => x / (eightCells 0).omega ^ 2 with heps
  set A := K - (eightCells 0).omega ^ 2 • Matrix.diagonal eps with hAdef
  -- the current of the turned field
  set J : VField (Shape.size ![2, 2, 2]) := (-Complex.I * (eightCells 0).omega)⁻¹ • (A *ᵥ turnedVec) with hJ
  have hs := eightCells_good J
  have hA : waveOp (eightCells J) eps = some A := hK eps
  obtain ⟨fields, g, G, hf, hg, hG, L, hL, hF⟩ := power_gradient_half hs middlePlane middlePlane_real eps hA hunit
  obtain ⟨L', hL', hF'⟩ := H _ _ middlePlane eps A fields g G hs middlePlane_real hA hunit hf hg hG
  have hLL : L = L' := hF.unique hF'
  have hzero : ∀ v : VField (Shape.size ![2, 2, 2]), ∑ p, (G p * v p).re = 0 := by
    intro v
    have h1 := hL v
    rw [hLL, hL'] at h1
    linarith
  have hL0 : L = 0 := ContinuousLinearMap.ext fun v => by rw [hL v, hzero v]; simp
  -- the fields are the turned field
  have hw0 : -Complex.I * (eightCells 0).omega ≠ 0 := mul_ne_zero (neg_ne_zero.2 Complex.I_ne_zero) hω0
  obtain ⟨K', hK', hsol'⟩ := sim_system hs
  have hKA : K' - (eightCells J).omega ^ 2 • Matrix.diagonal eps = A := by
    have := (hK' eps).symm.trans hA
    exact Option.some.inj this
  choose f hf1 hf2 using fun e => hsol' e J false
  have hfA : f eps = turnedVec := by
    have := solves_unique (W := A) hunit (x := f eps) (by have := hf2 eps; rw [hKA] at this; exact this)
    rw [this, hJ, smul_smul, show (eightCells J).omega = (eightCells 0).omega from rfl, mul_inv_cancel₀ hw0, one_smul,
      Matrix.mulVec_mulVec, Matrix.nonsing_inv_mul _ hunit, Matrix.one_mulVec]
  have hfields : fields = turnedVec := by
    have h1 : simFields (eightCells J) eps = some (f eps) := hf1 eps
    rw [hf, hfA] at h1
    exact Option.some.inj h1
  subst hfields
  -- the derivative through the direction that scales the field
  obtain ⟨gg, F0, hgg, hF0, hexp⟩ := plane_power_expansion middlePlane middlePlane_real turnedVec
  obtain ⟨g', hg', D, hD, hDF⟩ := plane_power_deriv middlePlane middlePlane_real turnedVec 1
  have hchain := objective_deriv K' ((eightCells J).omega ^ 2) ((-Complex.I * (eightCells J).omega) • J) eps
    (by rw [hKA]; exact hunit) (fun E' => 1 * (planePower middlePlane E').getD 0) D (by
      have : (K' - (eightCells J).omega ^ 2 • Matrix.diagonal eps)⁻¹ *ᵥ ((-Complex.I * (eightCells J).omega) • J) = turnedVec := by
        rw [hKA, hJ, smul_smul, show (eightCells J).omega = (eightCells 0).omega from rfl, mul_inv_cancel₀ hw0, one_smul,
          Matrix.mulVec_mulVec, Matrix.nonsing_inv_mul _ hunit, Matrix.one_mulVec]
      rw [this]
      exact hDF) f (fun e he => solves_unique he (hf2 e))
  obtain ⟨L2, hL2, hF2⟩ := hchain
  have hLL2 : L2 = L := by
    refine hF2.unique (hF.congr_of_eventuallyEq (Filter.Eventually.of_forall fun e => ?_))
    show 1 * (planePower middlePlane (f e)).getD 0 = (planePower middlePlane ((simFields (eightCells J) e).getD 0)).getD 0
    rw [show simFields (eightCells J) e = some (f e) from hf1 e, one_mul]
    rfl
  have hne : ∀ p, turnedVec p ≠ 0 := by
    intro p
    simp only [turnedVec, turned]
    split_ifs
    · exact Complex.I_ne_zero
    · exact one_ne_zero
  have hv := hL2 (fun p => ((eightCells J).omega ^ 2)⁻¹ * (A *ᵥ turnedVec) p / turnedVec p)
  rw [hLL2, hL0, hfA, hKA] at hv
  have hdir : ((eightCells J).omega ^ 2 • (A⁻¹ *ᵥ fun p => ((eightCells J).omega ^ 2)⁻¹ * (A *ᵥ turnedVec) p / turnedVec p *
      turnedVec p)) = turnedVec := by
    have e1 : (fun p => ((eightCells J).omega ^ 2)⁻¹ * (A *ᵥ turnedVec) p / turnedVec p * turnedVec p) =
        ((eightCells J).omega ^ 2)⁻¹ • (A *ᵥ turnedVec) := by
      funext p
      rw [div_mul_cancel₀ _ (hne p)]
      rfl
    rw [e1, Matrix.mulVec_smul, smul_smul, mul_inv_cancel₀ (show (eightCells J).omega ^ 2 ≠ 0 from pow_ne_zero 2 hω0), one_smul, Matrix.mulVec_mulVec,
      Matrix.nonsing_inv_mul _ hunit, Matrix.one_mulVec]
  rw [hdir, hD] at hv
  -- twice the power
  obtain ⟨Fw, hFw, he⟩ := hexp turnedVec
  rw [Complex.ofReal_one, hgg] at hg'
  cases hg'
  have h4 := planePower_double middlePlane turnedVec F0 hF0
  rw [hF0] at hFw
  cases hFw
  rw [h4, Option.some.injEq, ← hv] at he
  have hF00 : F0 = 0 := by
    rw [_root_.zero_apply] at he
    linarith
  have hval := plane_power_value middlePlane turnedVec
  rw [hF0, hF00, Option.some.injEq] at hval
  refine turned_power ?_
  have : ((middlePlane.polarity : ℤ) : ℝ) = 1 := by simp [middlePlane]
  rw [this, one_mul] at hval
  exact hval.symm

end Verif.Fdfd
