import Verif.Obj.Nodes
import Verif.Obj.NodeSpec
import Mathlib.Analysis.Calculus.FDeriv.Mul
import Mathlib.Analysis.Calculus.Deriv.Comp
import Mathlib.Analysis.Calculus.Deriv.ZPow
import Mathlib.Analysis.SpecialFunctions.Pow.Deriv
import Mathlib.Analysis.SpecialFunctions.Log.Deriv
import Mathlib.Analysis.SpecialFunctions.Sqrt
import Mathlib.Analysis.InnerProductSpace.Calculus
import Mathlib.Analysis.InnerProductSpace.NormPow
import Mathlib.Analysis.Calculus.Deriv.Inv
/-
Property C48: the gradients reported by the mathematical nodes are the derivatives of their values.
-/
set_option linter.unusedSectionVars false
namespace Verif.Obj
open Finset
variable {𝕜 : Type} [RCLike 𝕜] {ι κ : Type} [Fintype ι] [Fintype κ] {k : Nat}

/-- Entry `i` of input `a`, as a linear map. -/
noncomputable def entry (R : Type) [RCLike R] (E : Type) [NormedAddCommGroup E] [NormedSpace R E] (a : Fin k) (i : ι) :
    (Fin k → ι → E) →L[R] E :=
  (ContinuousLinearMap.proj (R := R) (φ := fun _ : ι => E) i).comp
    (ContinuousLinearMap.proj (R := R) (φ := fun _ : Fin k => ι → E) a)

@[simp] theorem entry_apply (R : Type) [RCLike R] (E : Type) [NormedAddCommGroup E] [NormedSpace R E] (a : Fin k) (i : ι)
    (d : Fin k → ι → E) : entry R E a i d = d a i := rfl

theorem entry_hasFDerivAt (R : Type) [RCLike R] (E : Type) [NormedAddCommGroup E] [NormedSpace R E] (a : Fin k) (i : ι)
    (x : Fin k → ι → E) : HasFDerivAt (fun y : Fin k → ι → E => y a i) (entry R E a i) x :=
  (entry R E a i).hasFDerivAt

/-- Elementwise functions of one array. -/
theorem elementwise (f f' : ℝ → ℝ) (ev : (Fin 1 → ι → ℝ) → ι → ℝ) (gr : (Fin 1 → ι → ℝ) → (ι → ℝ) →
    Option (Fin 1 → ι → ℝ)) (x : Fin 1 → ι → ℝ) (hev : ∀ y i, ev y i = f (y 0 i))
    (hf : ∀ i, HasDerivAt f (f' (x 0 i)) (x 0 i))
    (hgr : ∀ g, gr x g = some fun _ i => g i * f' (x 0 i)) : IsGradient ev gr x := by
  have hev' : ev = fun y i => f (y 0 i) := by funext y i; exact hev y i
  rw [hev']
  refine ⟨ContinuousLinearMap.pi fun i => f' (x 0 i) • entry ℝ ℝ 0 i, ?_, fun g => ⟨_, hgr g, fun d => ?_⟩⟩
  · rw [hasFDerivAt_pi]
    intro i
    exact (hf i).comp_hasFDerivAt x (entry_hasFDerivAt ℝ ℝ (0 : Fin 1) i x)
  · simp [mul_assoc]

/-- C48, `Sum` of goos and invdes: real and complex arrays, any number of inputs. -/
theorem sum_gradient (x : Fin k → ι → 𝕜) : IsGradient (κ := ι) sumEval sumGrad x := by
  refine ⟨ContinuousLinearMap.pi fun i => ∑ a, entry 𝕜 𝕜 a i, ?_, fun g => ⟨_, rfl, fun d => ?_⟩⟩
  · rw [hasFDerivAt_pi]
    intro i
    exact HasFDerivAt.fun_sum fun a _ => entry_hasFDerivAt 𝕜 𝕜 a i x
  · simp only [ContinuousLinearMap.coe_pi', FunLike.coe_sum, Finset.sum_apply, entry_apply,
      Finset.mul_sum]
    exact Finset.sum_comm

theorem prod_split (y : Fin k → 𝕜) (a : Fin k) :
    (∏ b ∈ univ.filter (· < a), y b) * (∏ b ∈ univ.filter (a < ·), y b) = ∏ b ∈ univ.erase a, y b := by
  rw [← Finset.prod_union]
  · apply Finset.prod_congr _ fun _ _ => rfl
    ext b
    simp only [mem_union, mem_filter, mem_univ, true_and, mem_erase, and_true]
    exact lt_or_lt_iff_ne
  · rw [Finset.disjoint_filter]
    intro b _ h1 h2
    exact absurd h1 (not_lt.2 h2.le)

/-- C48, `Product` of goos and invdes: real and complex arrays, any number of inputs. -/
theorem prod_gradient (x : Fin k → ι → 𝕜) : IsGradient (κ := ι) prodEval prodGrad x := by
  refine ⟨ContinuousLinearMap.pi fun i => ∑ a, (∏ b ∈ univ.erase a, x b i) • entry 𝕜 𝕜 a i, ?_,
    fun g => ⟨_, rfl, fun d => ?_⟩⟩
  · rw [hasFDerivAt_pi]
    intro i
    exact HasFDerivAt.finsetProd fun a _ => entry_hasFDerivAt 𝕜 𝕜 a i x
  · simp only [ContinuousLinearMap.coe_pi', FunLike.coe_sum, Finset.sum_apply, smul_apply, 
      entry_apply, Finset.mul_sum, prod_split, smul_eq_mul]
    rw [Finset.sum_comm]
    refine Finset.sum_congr rfl fun a _ => Finset.sum_congr rfl fun i _ => ?_
    ring

/-- C48, `Power` of goos and invdes on real arrays without zeros, or with an exponent at least 1. -/
theorem pow_gradient (p : ℝ) (x : Fin 1 → ι → ℝ) (h : ∀ i, x 0 i ≠ 0 ∨ 1 ≤ p) :
    IsGradient (κ := ι) (powEval p) (powGrad p) x :=
  elementwise (fun y => y ^ p) (fun y => p * y ^ (p - 1)) _ _ x (fun _ _ => rfl)
    (fun i => Real.hasDerivAt_rpow_const (h i)) (fun _ => rfl)

/-- C48, `Power` on complex arrays with an integer exponent. -/
theorem zpow_gradient (p : ℤ) (x : Fin 1 → ι → ℂ) (h : ∀ i, x 0 i ≠ 0 ∨ 0 ≤ p) :
    IsGradient (κ := ι) (zpowEval p) (zpowGrad p) x := by
  refine ⟨ContinuousLinearMap.pi fun i => ((p : ℂ) * x 0 i ^ (p - 1)) • entry ℂ ℂ 0 i, ?_,
    fun g => ⟨_, rfl, fun d => ?_⟩⟩
  · rw [hasFDerivAt_pi]
    intro i
    exact (hasDerivAt_zpow p (x 0 i) (h i)).comp_hasFDerivAt x (entry_hasFDerivAt ℂ ℂ (0 : Fin 1) i x)
  · simp [mul_assoc]

/-- C48, `Sigmoid`: the gradient taken after evaluating at the same point. -/
theorem sigmoid_gradient (x : Fin 1 → ι → ℝ) : IsGradient (κ := ι) sigEval (fun y => sigGrad (sigEval y)) x := by
  refine elementwise (fun y => 1 / (1 + Real.exp (-y)))
    (fun y => 1 / (1 + Real.exp (-y)) * (1 - 1 / (1 + Real.exp (-y)))) _ _ x (fun _ _ => rfl) (fun i => ?_) (fun _ => rfl)
  have hpos : (1 + Real.exp (-x 0 i)) ≠ 0 := by positivity
  have h1 : HasDerivAt (fun y : ℝ => 1 + Real.exp (-y)) (-Real.exp (-x 0 i)) (x 0 i) := by
    have := ((Real.hasDerivAt_exp (-x 0 i)).comp (x 0 i) (hasDerivAt_neg (x 0 i))).const_add 1
    simpa using this
  have h2 := h1.inv hpos
  simp only [one_div]
  refine h2.congr_deriv ?_
  field_simp
  ring

/-- A stale cache: the gradient of `Sigmoid` taken after evaluating somewhere else is not the derivative. -/
theorem sigmoid_gradient_stale_false :
    ¬ ∀ x y : Fin 1 → Unit → ℝ, IsGradient (κ := Unit) sigEval (fun _ => sigGrad (sigEval y)) x := by
  intro h
  have h0 := h (fun _ _ => 0) (fun _ _ => 0)
  have h1 := h (fun _ _ => 0) (fun _ _ => Real.log 2)
  obtain ⟨D, hD, h0⟩ := h0
  obtain ⟨D', hD', h1⟩ := h1
  have hDD := hD.unique hD'
  subst hDD
  obtain ⟨r, hr, h0⟩ := h0 (fun _ => 1)
  obtain ⟨r', hr', h1⟩ := h1 (fun _ => 1)
  have e0 := h0 (fun _ _ => 1)
  have e1 := h1 (fun _ _ => 1)
  rw [e0] at e1
  cases hr
  cases hr'
  have hl : Real.exp (-Real.log 2) = 1 / 2 := by rw [Real.exp_neg, Real.exp_log (by norm_num)]; norm_num
  simp [sigEval, hl] at e1
  norm_num at e1

/-- C48, `DotProduct`. -/
theorem dot_gradient (x : Fin 2 → ι → 𝕜) : IsGradient (κ := Unit) dotEval dotGrad x := by
  refine ⟨ContinuousLinearMap.pi fun _ => ∑ i, (x 0 i • entry 𝕜 𝕜 1 i + x 1 i • entry 𝕜 𝕜 0 i), ?_,
    fun g => ⟨_, rfl, fun d => ?_⟩⟩
  · rw [hasFDerivAt_pi]
    intro _
    refine HasFDerivAt.fun_sum fun i _ => ?_
    exact (entry_hasFDerivAt 𝕜 𝕜 (0 : Fin 2) i x).mul (entry_hasFDerivAt 𝕜 𝕜 (1 : Fin 2) i x)
  · simp only [ContinuousLinearMap.coe_pi', FunLike.coe_sum, Finset.sum_apply, add_apply, 
      smul_apply, entry_apply, Finset.mul_sum, smul_eq_mul, Fin.sum_univ_two, Fin.isValue, if_true,
      one_ne_zero, if_false, univ_unique, sum_singleton]
    rw [← Finset.sum_add_distrib]
    refine Finset.sum_congr rfl fun i _ => ?_
    show g () * _ = _
    ring

/-- C48, `ValueSlice`. -/
theorem value_slice_gradient {n : Nat} (j : Fin n) (x : Fin 1 → Fin n → 𝕜) :
    IsGradient (κ := Unit) (valueSliceEval j) (valueSliceGrad j) x := by
  refine ⟨ContinuousLinearMap.pi fun _ => entry 𝕜 𝕜 0 j, ?_, fun g => ⟨_, rfl, fun d => ?_⟩⟩
  · rw [hasFDerivAt_pi]
    intro _
    exact entry_hasFDerivAt 𝕜 𝕜 (0 : Fin 1) j x
  · simp

/-! ### Absolute values, norms and conjugates -/

theorem re_star_mul (z d : 𝕜) : RCLike.re (star z * d) = inner ℝ z d := by
  rw [real_inner_eq_re_inner 𝕜]
  rw [RCLike.inner_apply']
  rfl

/-- The derivative of the absolute value. -/
theorem norm_hasFDerivAt (z : 𝕜) (hz : z ≠ 0) :
    HasFDerivAt (fun y : 𝕜 => ‖y‖) ((1 / ‖z‖) • innerSL ℝ z) z := by
  have h1 : HasFDerivAt (fun y : 𝕜 => ‖y‖ ^ 2) (2 • innerSL ℝ z) z := by
    have := (hasFDerivAt_id (𝕜 := ℝ) z).norm_sq
    simpa using this
  have h2 := h1.sqrt (by simpa using hz)
  have h3 : (fun y : 𝕜 => Real.sqrt (‖y‖ ^ 2)) = fun y => ‖y‖ := by
    funext y; exact Real.sqrt_sq (norm_nonneg _)
  rw [h3] at h2
  refine h2.congr_fderiv ?_
  rw [Real.sqrt_sq (norm_nonneg _)]
  ext d
  simp only [smul_apply, nsmul_eq_mul, smul_eq_mul]
  have := norm_ne_zero_iff.2 hz
  push_cast
  field_simp

theorem abs_derivative (x : Fin 1 → ι → 𝕜) (hx : ∀ i, x 0 i ≠ 0) :
    HasFDerivAt (absEval (𝕜 := 𝕜) (ι := ι))
      (ContinuousLinearMap.pi fun i => ((1 / ‖x 0 i‖) • innerSL ℝ (x 0 i)).comp (entry ℝ 𝕜 0 i)) x := by
  rw [hasFDerivAt_pi]
  intro i
  exact (norm_hasFDerivAt (x 0 i) (hx i)).comp x (entry_hasFDerivAt ℝ 𝕜 (0 : Fin 1) i x)

theorem re_scaled (z d : 𝕜) (g n c : ℝ) (_hc : c ≠ 0) :
    RCLike.re (star z / (n : 𝕜) * (g : 𝕜) / (c : 𝕜) * d) = g / n / c * inner ℝ z d := by
  rw [show star z / (n : 𝕜) * (g : 𝕜) / (c : 𝕜) * d = ((g / n / c : ℝ) : 𝕜) * (star z * d) by push_cast; ring,
    RCLike.re_ofReal_mul, re_star_mul]

/-- C48, `AbsoluteValue` of goos at entries other than zero: with the convention of goos, `∂/∂z` for complex arrays and
the ordinary gradient for real ones. -/
theorem goos_abs_gradient (cplx : Bool) (x : Fin 1 → ι → 𝕜) (hx : ∀ i, x 0 i ≠ 0) :
    IsRealGradient (κ := ι) (if cplx then 2 else 1) absEval (goosAbsGrad cplx) x := by
  refine ⟨_, abs_derivative x hx, fun g => ⟨_, if_neg (by simpa using hx), fun d => ?_⟩⟩
  simp only [ContinuousLinearMap.coe_pi', ContinuousLinearMap.comp_apply, smul_apply,
    entry_apply, smul_eq_mul, innerSL_apply_apply, univ_unique, sum_singleton, Fin.default_eq_zero, map_sum, mul_sum]
  refine Finset.sum_congr rfl fun i _ => ?_
  have hc : (if cplx = true then (2 : 𝕜) else 1) = (((if cplx = true then 2 else 1 : ℝ)) : 𝕜) := by
    cases cplx
    · simp
    · exact (map_ofNat (algebraMap ℝ 𝕜) 2).symm
  have hne : (if cplx = true then (2 : ℝ) else 1) ≠ 0 := by split <;> norm_num
  rw [hc, re_scaled _ _ _ _ _ hne]
  field_simp

/-- At a zero entry the gradient of `AbsoluteValue` is not a number. -/
theorem goos_abs_zero (cplx : Bool) (x : Fin 1 → ι → 𝕜) (i : ι) (hx : x 0 i = 0) (g : ι → ℝ) :
    goosAbsGrad cplx x g = none := if_pos ⟨i, by simp [hx]⟩

/-- C48, `AbsoluteValue` of invdes at entries other than zero, with the convention of invdes (`c = 1`). -/
theorem invdes_abs_gradient (x : Fin 1 → ι → 𝕜) (hx : ∀ i, x 0 i ≠ 0) :
    IsRealGradient (κ := ι) 1 absEval invdesAbsGrad x := by
  refine ⟨_, abs_derivative x hx, fun g => ⟨_, if_neg (by simpa using hx), fun d => ?_⟩⟩
  simp only [ContinuousLinearMap.coe_pi', ContinuousLinearMap.comp_apply, smul_apply,
    entry_apply, smul_eq_mul, innerSL_apply_apply, univ_unique, sum_singleton, Fin.default_eq_zero, map_sum, mul_sum]
  refine Finset.sum_congr rfl fun i _ => ?_
  have := re_scaled (x 0 i) (d 0 i) (g i) ‖x 0 i‖ 1 one_ne_zero
  rw [show ((g i : ℝ) : 𝕜) * (star (x 0 i) / ((‖x 0 i‖ : ℝ) : 𝕜)) * d 0 i =
    star (x 0 i) / ((‖x 0 i‖ : ℝ) : 𝕜) * ((g i : ℝ) : 𝕜) / ((1 : ℝ) : 𝕜) * d 0 i by rw [RCLike.ofReal_one, div_one]; ring, this]
  ring

/-- The derivative of the norm of order `p > 1` at a point other than zero. -/
theorem norm_derivative (p : ℝ) (hp : 1 < p) (x : Fin 1 → ι → 𝕜) (hx : ∑ i, ‖x 0 i‖ ^ p ≠ 0) :
    HasFDerivAt (normEval (𝕜 := 𝕜) (ι := ι) p)
      (ContinuousLinearMap.pi fun _ => ((1 / p) * (∑ i, ‖x 0 i‖ ^ p) ^ (1 / p - 1)) •
        ∑ i, ((p * ‖x 0 i‖ ^ (p - 2)) • innerSL ℝ (x 0 i)).comp (entry ℝ 𝕜 0 i)) x := by
  rw [hasFDerivAt_pi]
  intro _
  refine HasFDerivAt.rpow_const (HasFDerivAt.fun_sum fun i _ => ?_) (Or.inl hx)
  exact (hasFDerivAt_norm_rpow (x 0 i) hp).comp x (entry_hasFDerivAt ℝ 𝕜 (0 : Fin 1) i x)

/-- C48, `Norm` of every order greater than 1 at every array other than zero. -/
theorem norm_gradient (cplx : Bool) (p : ℝ) (hp : 1 < p) (x : Fin 1 → ι → 𝕜) (hx : ∃ i, x 0 i ≠ 0) :
    IsRealGradient (κ := Unit) (if cplx then 2 else 1) (normEval p) (normGrad cplx p) x := by
  have hS : 0 < ∑ i, ‖x 0 i‖ ^ p := by
    obtain ⟨i, hi⟩ := hx
    exact Finset.sum_pos' (fun _ _ => Real.rpow_nonneg (norm_nonneg _) _)
      ⟨i, mem_univ _, Real.rpow_pos_of_pos (norm_pos_iff.2 hi) _⟩
  have hN0 : 0 ≤ normEval p x () := Real.rpow_nonneg hS.le _
  have hN : normEval p x () ≠ 0 := (Real.rpow_pos_of_pos hS _).ne'
  refine ⟨_, norm_derivative p hp x hS.ne', fun g => ⟨_, if_neg hN, fun d => ?_⟩⟩
  simp only [ContinuousLinearMap.coe_pi', ContinuousLinearMap.comp_apply, smul_apply,
    FunLike.coe_sum, Finset.sum_apply, entry_apply, smul_eq_mul, innerSL_apply_apply, univ_unique,
    sum_singleton, Fin.default_eq_zero, map_sum, mul_sum]
  refine Finset.sum_congr rfl fun i _ => ?_
  show g () * _ = _
  have hc : (if cplx = true then (2 : 𝕜) else 1) = (((if cplx = true then 2 else 1 : ℝ)) : 𝕜) := by
    cases cplx
    · simp
    · exact (map_ofNat (algebraMap ℝ 𝕜) 2).symm
  have hne : (if cplx = true then (2 : ℝ) else 1) ≠ 0 := by split <;> norm_num
  rw [hc]
  generalize (if cplx = true then (2 : ℝ) else 1) = c at hne ⊢
  by_cases hz : x 0 i = 0
  · simp [hz]
  have hpos : 0 < ‖x 0 i‖ := norm_pos_iff.2 hz
  rw [if_pos hpos]
  rw [show ((g () : ℝ) : 𝕜) * (star (x 0 i) * (((‖x 0 i‖ / normEval p x ()) ^ (p - 1) : ℝ) : 𝕜) / ((‖x 0 i‖ : ℝ) : 𝕜) / (c : 𝕜)) * d 0 i =
    ((g () * (‖x 0 i‖ / normEval p x ()) ^ (p - 1) / ‖x 0 i‖ / c : ℝ) : 𝕜) * (star (x 0 i) * d 0 i) by push_cast; ring,
    RCLike.re_ofReal_mul, re_star_mul]
  have e1 : (∑ i, ‖x 0 i‖ ^ p) ^ (1 / p - 1) = (normEval p x ())⁻¹ ^ (p - 1) := by
    unfold normEval
    rw [← Real.rpow_neg_one, ← Real.rpow_mul (Real.rpow_nonneg hS.le _), ← Real.rpow_mul hS.le]
    congr 1
    field_simp
    ring
  have e2 : ‖x 0 i‖ ^ (p - 2) = ‖x 0 i‖ ^ (p - 1) / ‖x 0 i‖ := by
    rw [← Real.rpow_sub_one hpos.ne']
    congr 1
    ring
  rw [e1, e2, div_eq_mul_inv ‖x 0 i‖, Real.mul_rpow hpos.le (inv_nonneg.2 hN0)]
  have : p ≠ 0 := by linarith
  field_simp

/-- The documentation promises the gradient zero at the zero array; the gradient is not a number there. -/
theorem norm_gradient_zero_false (cplx : Bool) (p : ℝ) (hp : 1 < p) (g : Unit → ℝ) :
    normGrad cplx p (fun (_ : Fin 1) (_ : ι) => (0 : 𝕜)) g = none := by
  refine if_pos ?_
  have : p ≠ 0 := by linarith
  simp [normEval, this]

/-- C48, `Conjugate`: not complex differentiable, but the pairing of the real parts is exact. -/
theorem conj_gradient (x : Fin 1 → ι → 𝕜) :
    ∃ D : (Fin 1 → ι → 𝕜) →L[ℝ] (ι → 𝕜), HasFDerivAt conjEval D x ∧
      ∀ g, ∃ r, conjGrad x g = some r ∧
        ∀ d, RCLike.re (∑ j, g j * D d j) = RCLike.re (∑ a, ∑ i, r a i * d a i) := by
  refine ⟨ContinuousLinearMap.pi fun i => (RCLike.conjCLE (K := 𝕜) : 𝕜 →L[ℝ] 𝕜).comp (entry ℝ 𝕜 0 i), ?_,
    fun g => ⟨_, rfl, fun d => ?_⟩⟩
  · rw [hasFDerivAt_pi]
    intro i
    exact (RCLike.conjCLE (K := 𝕜) : 𝕜 →L[ℝ] 𝕜).hasFDerivAt.comp x (entry_hasFDerivAt ℝ 𝕜 (0 : Fin 1) i x)
  · simp only [univ_unique, sum_singleton, Fin.default_eq_zero, map_sum]
    refine Finset.sum_congr rfl fun i _ => ?_
    show RCLike.re (g i * star (d 0 i)) = RCLike.re (star (g i) * d 0 i)
    rw [← RCLike.conj_re (star (g i) * d 0 i)]
    congr 1
    simp [mul_comm]

/-- C48, `RealPart` with the convention of invdes. -/
theorem real_part_gradient (x : Fin 1 → ι → 𝕜) : IsRealGradient (κ := ι) 1 realEval realGrad x := by
  refine ⟨ContinuousLinearMap.pi fun i => (RCLike.reCLM (K := 𝕜)).comp (entry ℝ 𝕜 0 i), ?_,
    fun g => ⟨_, rfl, fun d => ?_⟩⟩
  · rw [hasFDerivAt_pi]
    intro i
    exact (RCLike.reCLM (K := 𝕜)).hasFDerivAt.comp x (entry_hasFDerivAt ℝ 𝕜 (0 : Fin 1) i x)
  · simp only [univ_unique, sum_singleton, Fin.default_eq_zero, map_sum, one_mul]
    refine Finset.sum_congr rfl fun i _ => ?_
    rw [RCLike.re_ofReal_mul]
    rfl

end Verif.Obj
