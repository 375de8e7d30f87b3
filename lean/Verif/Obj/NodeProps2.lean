import Verif.Obj.NodeProps
/-
Property C48, continued: thresholds, smooth maxima, elementwise maximum.
-/
set_option linter.unusedSectionVars false
namespace Verif.Obj
open Finset
variable {ι κ : Type} [Fintype ι] [Fintype κ] {k : Nat}

/-! ### Thresholds -/

/-- `(x > a) * |x - a|^p` and its derivative. -/
noncomputable def hinge (a p x : ℝ) : ℝ := (if x > a then 1 else 0) * |x - a| ^ p
noncomputable def hinge' (a p x : ℝ) : ℝ :=
  (if x > a then 1 else 0) * p * |x - a| ^ (p - 1) * ((SignType.sign (x - a) : SignType) : ℝ)

theorem hinge_above (a p x : ℝ) (h : a < x) : HasDerivAt (hinge a p) (hinge' a p x) x := by
  have h1 : HasDerivAt (fun y : ℝ => (y - a) ^ p) (p * (x - a) ^ (p - 1)) x := by
    have := ((hasDerivAt_id' x).sub_const a).rpow_const (p := p) (Or.inl (by linarith))
    refine this.congr_deriv ?_
    ring
  have h2 : hinge a p =ᶠ[nhds x] fun y => (y - a) ^ p := by
    filter_upwards [lt_mem_nhds h] with y hy
    unfold hinge
    rw [if_pos hy, one_mul, abs_of_pos (by linarith)]
  refine (h1.congr_of_eventuallyEq h2).congr_deriv ?_
  unfold hinge'
  rw [if_pos h, sign_pos (by linarith), abs_of_pos (by linarith)]
  simp

theorem hinge_below (a p x : ℝ) (h : x < a) : HasDerivAt (hinge a p) (hinge' a p x) x := by
  have h2 : hinge a p =ᶠ[nhds x] fun _ => 0 := by
    filter_upwards [gt_mem_nhds h] with y hy
    unfold hinge
    rw [if_neg (by simp only [gt_iff_lt, not_lt]; exact le_of_lt hy), zero_mul]
  refine ((hasDerivAt_const x (0 : ℝ)).congr_of_eventuallyEq h2).congr_deriv ?_
  unfold hinge'
  rw [if_neg (by simp only [gt_iff_lt, not_lt]; exact h.le)]
  simp

theorem hinge_at (a p : ℝ) (hp : 1 < p) : HasDerivAt (hinge a p) (hinge' a p a) a := by
  have h0 : hinge' a p a = 0 := by simp [hinge']
  rw [h0]
  have h1 : HasDerivAt (fun y : ℝ => |y - a| ^ p) 0 a := by
    have := HasDerivAt.comp (h₂ := fun y : ℝ => |y| ^ p) (h := fun y : ℝ => y - a) a (hasDerivAt_abs_rpow (a - a) hp)
      ((hasDerivAt_id' a).sub_const a)
    refine this.congr_deriv ?_
    simp
  have h2 : ‖hinge a p a‖ ≤ 0 := by simp [hinge]
  rw [hasDerivAt_iff_isLittleO] at h1 ⊢
  refine Asymptotics.IsBigO.trans_isLittleO (Asymptotics.IsBigO.of_bound 1 (Filter.Eventually.of_forall fun y => ?_)) h1
  have hp0 : p ≠ 0 := by linarith
  have e1 : hinge a p a = 0 := by simp [hinge]
  simp only [e1, sub_zero, smul_zero, sub_self, abs_zero, Real.zero_rpow hp0, one_mul, Real.norm_eq_abs]
  unfold hinge
  split
  · rw [one_mul]
  · simp

theorem hinge_hasDerivAt (a p x : ℝ) (h : x ≠ a ∨ 1 < p) : HasDerivAt (hinge a p) (hinge' a p x) x := by
  rcases lt_trichotomy x a with h1 | h1 | h1
  · exact hinge_below a p x h1
  · subst h1
    rcases h with h | h
    · exact absurd rfl h
    · exact hinge_at x p h
  · exact hinge_above a p x h1

/-- `(x < b) * |b - x|^p` is the mirrored function. -/
theorem mirrored_hasDerivAt (b p x : ℝ) (h : x ≠ b ∨ 1 < p) :
    HasDerivAt (fun y => (if y < b then 1 else 0) * |b - y| ^ p)
      ((if x < b then 1 else 0) * p * |b - x| ^ (p - 1) * ((SignType.sign (b - x) : SignType) : ℝ) * (-1)) x := by
  have h1 := (hinge_hasDerivAt (-b) p (-x) (by
    rcases h with h | h
    · exact Or.inl fun e => h (neg_injective e)
    · exact Or.inr h)).comp x (hasDerivAt_neg x)
  have e1 : (hinge (-b) p ∘ Neg.neg) = fun y => (if y < b then 1 else 0) * |b - y| ^ p := by
    funext y
    simp only [Function.comp, hinge, gt_iff_lt, neg_lt_neg_iff]
    rw [show -y - -b = b - y by ring]
  have e2 : hinge' (-b) p (-x) = (if x < b then 1 else 0) * p * |b - x| ^ (p - 1) *
      ((SignType.sign (b - x) : SignType) : ℝ) := by
    simp only [hinge', gt_iff_lt, neg_lt_neg_iff]
    rw [show -x - -b = b - x by ring]
  rw [e1, e2] at h1
  exact h1

/-- C48, `IndicatorPlus`: away from the threshold, and at it for powers above 1. -/
theorem indicator_plus_gradient (alpha p : ℝ) (x : Fin 1 → ι → ℝ) (h : ∀ i, x 0 i ≠ alpha ∨ 1 < p) :
    IsGradient (κ := ι) (plusEval alpha p) (plusGrad alpha p) x :=
  elementwise (hinge alpha p) (hinge' alpha p) _ _ x (fun _ _ => rfl) (fun i => hinge_hasDerivAt _ _ _ (h i))
    (fun _ => rfl)

/-- C48, `IndicatorMin`. -/
theorem indicator_min_gradient (beta p : ℝ) (x : Fin 1 → ι → ℝ) (h : ∀ i, x 0 i ≠ beta ∨ 1 < p) :
    IsGradient (κ := ι) (minEval beta p) (minGrad beta p) x :=
  elementwise (fun y => (if y < beta then 1 else 0) * |beta - y| ^ p)
    (fun y => (if y < beta then 1 else 0) * p * |beta - y| ^ (p - 1) *
      ((SignType.sign (beta - y) : SignType) : ℝ) * (-1)) _ _ x (fun _ _ => rfl)
    (fun i => mirrored_hasDerivAt _ _ _ (h i)) (fun _ => rfl)

/-- C48, `PowerComparison`. -/
theorem power_comparison_gradient (beta alpha p : ℝ) (x : Fin 1 → ι → ℝ)
    (h : ∀ i, (x 0 i ≠ alpha ∧ x 0 i ≠ beta) ∨ 1 < p) :
    IsGradient (κ := ι) (cmpEval beta alpha p) (cmpGrad beta alpha p) x := by
  refine elementwise (fun y => hinge alpha p y + (if y < beta then 1 else 0) * |beta - y| ^ p)
    (fun y => (if y < beta then 1 else 0) * p * |beta - y| ^ (p - 1) *
      ((SignType.sign (beta - y) : SignType) : ℝ) * (-1) + hinge' alpha p y) _ _ x (fun _ _ => rfl)
    (fun i => ?_) (fun _ => rfl)
  refine ((hinge_hasDerivAt alpha p (x 0 i) ((h i).imp_left fun h => h.1)).add
    (mirrored_hasDerivAt beta p (x 0 i) ((h i).imp_left fun h => h.2))).congr_deriv ?_
  ring

/-- The value is zero exactly within the range. -/
theorem power_comparison_zero (beta alpha p : ℝ) (x : Fin 1 → ι → ℝ) (i : ι) :
    cmpEval beta alpha p x i = 0 ↔ beta ≤ x 0 i ∧ x 0 i ≤ alpha := by
  unfold cmpEval
  have key : ∀ y : ℝ, 0 < y → 0 < |y| ^ p := fun y hy => Real.rpow_pos_of_pos (abs_pos.2 hy.ne') _
  constructor
  · intro h
    by_cases h1 : x 0 i > alpha
    · rw [if_pos h1] at h
      have := key (x 0 i - alpha) (by linarith)
      split at h
      · have := key (beta - x 0 i) (by linarith); linarith
      · linarith
    · by_cases h2 : x 0 i < beta
      · rw [if_neg h1, if_pos h2] at h
        have := key (beta - x 0 i) (by linarith)
        linarith
      · exact ⟨not_lt.1 h2, not_lt.1 h1⟩
  · intro ⟨h1, h2⟩
    rw [if_neg (not_lt.2 h1), if_neg (by simp only [gt_iff_lt, not_lt]; exact h2)]
    simp

/-! ### Smooth maxima -/

theorem exp_sum_pos (y : Fin (k + 1) → ℝ) : 0 < ∑ a, Real.exp (y a) :=
  Finset.sum_pos (fun _ _ => Real.exp_pos _) ⟨0, mem_univ _⟩

/-- Factoring out the maximum does not change the value: `LogSumExp` is `log (∑ exp x_i)`. -/
theorem lse_value (x : Fin (k + 1) → Unit → ℝ) : lseEval x () = Real.log (∑ a, Real.exp (x a ())) := by
  unfold lseEval
  have : ∑ a, Real.exp (x a ()) = Real.exp (maxVal x) * ∑ a, Real.exp (x a () - maxVal x) := by
    rw [Finset.mul_sum]
    refine Finset.sum_congr rfl fun a _ => ?_
    rw [← Real.exp_add]
    congr 1
    ring
  rw [this, Real.log_mul (Real.exp_pos _).ne' (exp_sum_pos _).ne', Real.log_exp]

theorem lse_weights (x : Fin (k + 1) → Unit → ℝ) (a : Fin (k + 1)) :
    1 / (∑ b, Real.exp (x b () - maxVal x)) * Real.exp (x a () - maxVal x) =
      (∑ b, Real.exp (x b ()))⁻¹ * Real.exp (x a ()) := by
  simp only [Real.exp_sub, ← Finset.sum_div]
  have h1 := (Real.exp_pos (maxVal x)).ne'
  have h2 := (exp_sum_pos fun b => x b ()).ne'
  field_simp

/-- C48, `LogSumExp` of any number of scalars. -/
theorem log_sum_exp_gradient (x : Fin (k + 1) → Unit → ℝ) : IsGradient (κ := Unit) lseEval lseGrad x := by
  have hev : (lseEval (k := k)) = fun y _ => Real.log (∑ a, Real.exp (y a ())) := by
    funext y u; exact lse_value y
  rw [hev]
  refine ⟨ContinuousLinearMap.pi fun _ => (∑ b, Real.exp (x b ()))⁻¹ • ∑ a, Real.exp (x a ()) • entry ℝ ℝ a (),
    ?_, fun g => ⟨_, rfl, fun d => ?_⟩⟩
  · rw [hasFDerivAt_pi]
    intro _
    exact (HasFDerivAt.fun_sum fun a _ => (entry_hasFDerivAt ℝ ℝ a () x).exp).log (exp_sum_pos _).ne'
  · simp only [ContinuousLinearMap.coe_pi', smul_apply, FunLike.coe_sum, Finset.sum_apply, entry_apply, smul_eq_mul,
      univ_unique, sum_singleton, lse_weights, Finset.mul_sum]
    refine Finset.sum_congr rfl fun a _ => ?_
    show g () * _ = _
    ring

/-- `LogSumExp` lies between the maximum and the maximum plus the logarithm of the number of inputs. -/
theorem log_sum_exp_bounds (x : Fin (k + 1) → Unit → ℝ) :
    maxVal x ≤ lseEval x () ∧ lseEval x () ≤ maxVal x + Real.log (k + 1) := by
  have hle : ∀ a, x a () ≤ maxVal x := fun a => Finset.le_sup' (fun a => x a ()) (mem_univ a)
  obtain ⟨b, _, hb⟩ := exists_mem_eq_sup' (s := (univ : Finset (Fin (k + 1)))) ⟨0, mem_univ _⟩ fun a => x a ()
  have h1 : (1 : ℝ) ≤ ∑ a, Real.exp (x a () - maxVal x) := by
    have h2 : Real.exp (x b () - maxVal x) = 1 := by
      have : maxVal x = x b () := hb
      rw [this]; simp
    rw [← h2]
    exact Finset.single_le_sum (f := fun a => Real.exp (x a () - maxVal x)) (fun _ _ => (Real.exp_pos _).le) (mem_univ b)
  have h3 : ∑ a, Real.exp (x a () - maxVal x) ≤ (k : ℝ) + 1 := by
    have : ∑ a : Fin (k + 1), Real.exp (x a () - maxVal x) ≤ ∑ _a : Fin (k + 1), (1 : ℝ) :=
      Finset.sum_le_sum fun a _ => by
        rw [← Real.exp_zero]
        exact Real.exp_le_exp.2 (by linarith [hle a])
    simpa using this
  unfold lseEval
  constructor
  · linarith [Real.log_nonneg h1]
  · linarith [Real.log_le_log (by linarith) h3]

theorem soft_value (x : Fin (k + 1) → Unit → ℝ) :
    softEval x () = (∑ a, x a () * Real.exp (x a ())) / ∑ a, Real.exp (x a ()) := by
  unfold softEval
  simp only [Real.exp_sub, ← Finset.sum_div, ← mul_div_assoc]
  rw [div_div_div_cancel_right₀ (Real.exp_pos _).ne']

/-- C48, `SoftmaxAverage` of any number of scalars. -/
theorem softmax_average_gradient (x : Fin (k + 1) → Unit → ℝ) : IsGradient (κ := Unit) softEval softGrad x := by
  have hev : (softEval (k := k)) = fun y _ => (∑ a, y a () * Real.exp (y a ())) * (∑ a, Real.exp (y a ()))⁻¹ := by
    funext y u; rw [← div_eq_mul_inv]; exact soft_value y
  rw [hev]
  have hE := (exp_sum_pos fun b => x b ()).ne'
  have hm := (Real.exp_pos (maxVal x)).ne'
  have hnum : HasFDerivAt (fun y : Fin (k + 1) → Unit → ℝ => ∑ a, y a () * Real.exp (y a ()))
      (∑ a, (x a () • (Real.exp (x a ()) • entry ℝ ℝ a ()) + Real.exp (x a ()) • entry ℝ ℝ a ())) x :=
    HasFDerivAt.fun_sum fun a _ => (entry_hasFDerivAt ℝ ℝ a () x).mul (entry_hasFDerivAt ℝ ℝ a () x).exp
  have hden : HasFDerivAt (fun y : Fin (k + 1) → Unit → ℝ => ∑ a, Real.exp (y a ()))
      (∑ a, Real.exp (x a ()) • entry ℝ ℝ a ()) x :=
    HasFDerivAt.fun_sum fun a _ => (entry_hasFDerivAt ℝ ℝ a () x).exp
  have hinv := (hasDerivAt_inv hE).comp_hasFDerivAt x hden
  refine ⟨_, hasFDerivAt_pi.2 fun _ => hnum.mul hinv, fun g => ⟨_, rfl, fun d => ?_⟩⟩
  simp only [ContinuousLinearMap.coe_pi', smul_apply, add_apply, FunLike.coe_sum, Finset.sum_apply, entry_apply,
    smul_eq_mul, univ_unique, sum_singleton]
  show g () * _ = _
  have hw : ∀ a, Real.exp (x a () - maxVal x) = Real.exp (x a ()) / Real.exp (maxVal x) := fun a => Real.exp_sub _ _
  simp only [hw, ← Finset.sum_div, ← mul_div_assoc]
  generalize hEd : ∑ a, Real.exp (x a ()) = E at hE
  generalize hNd : ∑ a, x a () * Real.exp (x a ()) = N
  generalize Real.exp (maxVal x) = M at hm
  rw [Finset.mul_sum, Finset.mul_sum, Finset.mul_sum, ← Finset.sum_add_distrib, Finset.mul_sum]
  refine Finset.sum_congr rfl fun a _ => ?_
  show g () * (N * (-(E ^ 2)⁻¹ * (Real.exp (x a ()) * d a ())) + E⁻¹ * _) = _
  field_simp
  ring

/-! ### Maximum -/

/-- C48, `Max`: where the maximum is attained by one input only, in every entry. -/
theorem max_gradient (x : Fin (k + 1) → ι → ℝ) (m : ι → Fin (k + 1)) (hm : ∀ i a, a ≠ m i → x a i < x (m i) i) :
    IsGradient (κ := ι) maxEval maxGrad x := by
  have hmax : ∀ i, maxEval x i = x (m i) i := by
    intro i
    apply le_antisymm
    · refine Finset.sup'_le _ _ fun a _ => ?_
      by_cases h : a = m i
      · rw [h]
      · exact (hm i a h).le
    · exact Finset.le_sup' (fun a => x a i) (mem_univ (m i))
  have harg : ∀ i, argmax x i = m i := by
    intro i
    have : argmax x i ∈ univ.filter fun a => x a i = maxEval x i := Finset.min'_mem _ _
    have := (mem_filter.1 this).2
    rw [hmax i] at this
    by_contra h
    exact absurd this (hm i _ h).ne
  refine ⟨ContinuousLinearMap.pi fun i => entry ℝ ℝ (m i) i, ?_, fun g => ⟨_, rfl, fun d => ?_⟩⟩
  · rw [hasFDerivAt_pi]
    intro i
    have hnear : (fun y : Fin (k + 1) → ι → ℝ => maxEval y i) =ᶠ[nhds x] fun y => y (m i) i := by
      have h1 : ∀ a, a ≠ m i → ∀ᶠ y : Fin (k + 1) → ι → ℝ in nhds x, y a i < y (m i) i := by
        intro a ha
        have c1 : ContinuousAt (fun y : Fin (k + 1) → ι → ℝ => y a i) x := (entry ℝ ℝ a i).continuous.continuousAt
        have c2 : ContinuousAt (fun y : Fin (k + 1) → ι → ℝ => y (m i) i) x :=
          (entry ℝ ℝ (m i) i).continuous.continuousAt
        exact c1.eventually_lt c2 (hm i a ha)
      have h2 : ∀ᶠ y : Fin (k + 1) → ι → ℝ in nhds x, ∀ a, a ≠ m i → y a i < y (m i) i :=
        Filter.eventually_all.2 fun a => by
          by_cases ha : a = m i
          · exact Filter.Eventually.of_forall fun _ h => absurd ha h
          · exact (h1 a ha).mono fun y hy _ => hy
      filter_upwards [h2] with y hy
      apply le_antisymm
      · refine Finset.sup'_le _ _ fun a _ => ?_
        by_cases h : a = m i
        · rw [h]
        · exact (hy a h).le
      · exact Finset.le_sup' (fun a => y a i) (mem_univ (m i))
    exact (entry_hasFDerivAt ℝ ℝ (m i) i x).congr_of_eventuallyEq hnear
  · simp only [ContinuousLinearMap.coe_pi', entry_apply]
    rw [Finset.sum_comm]
    refine Finset.sum_congr rfl fun i _ => ?_
    rw [Finset.sum_eq_single (m i)]
    · rw [harg i]; simp
    · intro a _ ha
      rw [harg i, if_pos (Ne.symm ha), zero_mul]
    · intro h; exact absurd (mem_univ _) h

/-- Even where several inputs attain the maximum, the gradient goes to exactly one of them. -/
theorem max_gradient_one (x : Fin (k + 1) → ι → ℝ) (g : ι → ℝ) :
    ∃ r, maxGrad x g = some r ∧ ∀ i, ∃ a, x a i = maxEval x i ∧ r a i = g i ∧ ∀ b, b ≠ a → r b i = 0 := by
  refine ⟨_, rfl, fun i => ⟨argmax x i, ?_, by simp, fun b hb => if_pos (Ne.symm hb)⟩⟩
  have : argmax x i ∈ univ.filter fun a => x a i = maxEval x i := Finset.min'_mem _ _
  exact (mem_filter.1 this).2

/-- The hypotheses are met by ordinary inputs. -/
example : IsGradient (κ := Fin 2) maxEval maxGrad (fun (a : Fin 2) (i : Fin 2) => if a = i then (1 : ℝ) else 0) :=
  max_gradient _ (fun i => i) (by
    intro i a h
    fin_cases i <;> fin_cases a <;> simp_all)

example : IsGradient (κ := Fin 2) (powEval (-1)) (powGrad (-1)) (fun _ _ => (-2 : ℝ)) :=
  pow_gradient _ _ (fun _ => Or.inl (by norm_num))

example : IsRealGradient (κ := Unit) 2 (normEval 2) (normGrad true 2) (fun _ (i : Fin 2) => if i = 0 then Complex.I else 0) := by
  have := norm_gradient true 2 (by norm_num) (fun (_ : Fin 1) (i : Fin 2) => if i = 0 then Complex.I else 0) ⟨0, by simp⟩
  simpa using this

end Verif.Obj
