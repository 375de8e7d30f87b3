import Verif.Obj.Structure
import Verif.Obj.NodeProps
import Mathlib.Analysis.InnerProductSpace.Calculus
/-
Property C92: objectives of the structure.
-/
namespace Verif.Obj.Structure
open Matrix

/-! ### Specification -/

/-- `g` is the gradient of `f` at `p`. -/
def Grad {k : Nat} (f : (Fin k → ℝ) → ℝ) (g p : Fin k → ℝ) : Prop :=
  ∃ L : (Fin k → ℝ) →L[ℝ] ℝ, HasFDerivAt f L p ∧ ∀ v, L v = ∑ i, g i * v i

theorem Grad.unique {k : Nat} {f : (Fin k → ℝ) → ℝ} {g g' p : Fin k → ℝ} (h : Grad f g p) (h' : Grad f g' p) : g = g' := by
  obtain ⟨L, hL, e⟩ := h
  obtain ⟨L', hL', e'⟩ := h'
  funext i
  have := congrArg (fun M : (Fin k → ℝ) →L[ℝ] ℝ => M (Pi.single i 1)) (hL.unique hL')
  simp only [e, e', Pi.single_apply, mul_ite, mul_one, mul_zero, Finset.sum_ite_eq', Finset.mem_univ, if_true] at this
  exact this

/-! ### `Fit2Eps` -/

variable {N m k : Nat} (bg : Fin N → ℂ) (S : Matrix (Fin N) (Fin m) ℂ) (eps : Fin N → ℂ)

/-- C92: the value is the squared distance of the permittivity of the structure to the wanted one, zero exactly if they
agree in every cell. -/
theorem fit_zero (z : Fin m → ℝ) :
    fitValue bg S eps z = 0 ↔ ∀ i, bg i + ∑ j, S i j * (z j : ℂ) = eps i := by
  unfold fitValue
  rw [Finset.sum_eq_zero_iff_of_nonneg (fun i _ => by positivity)]
  simp only [Finset.mem_univ, true_imp_iff]
  refine forall_congr' fun i => ?_
  rw [pow_eq_zero_iff (by norm_num), norm_eq_zero]
  show bg i + (S *ᵥ fun j => (z j : ℂ)) i - eps i = 0 ↔ _
  rw [sub_eq_zero]
  rfl

noncomputable def realL (S : Matrix (Fin N) (Fin m) ℂ) : (Fin m → ℝ) →L[ℝ] (Fin N → ℂ) :=
  LinearMap.toContinuousLinearMap
    { toFun := fun z => S *ᵥ fun j => (z j : ℂ)
      map_add' := by
        intro x y
        rw [← Matrix.mulVec_add]; congr 1; funext p; simp
      map_smul' := by
        intro a x
        rw [RingHom.id_apply, ← Matrix.mulVec_smul]; congr 1; funext p; simp }

theorem realL_apply (z : Fin m → ℝ) : realL S z = S *ᵥ fun j => (z j : ℂ) := rfl

theorem fit_pairing (z : Fin m → ℝ) (J : Matrix (Fin m) (Fin k) ℝ) (v : Fin k → ℝ) :
    ∑ i, ((star (fitErr bg S eps z i)) * (S *ᵥ fun j => ((J *ᵥ v) j : ℂ)) i).re = ∑ a, fitGrad bg S eps z J a * v a := by
  have h1 : ∀ a, fitGrad bg S eps z J a * v a =
      (((((fun i => star (fitErr bg S eps z i)) ᵥ* S) ᵥ* J.map fun r => (r : ℂ)) a) * (v a : ℂ)).re := by
    intro a
    rw [Complex.re_mul_ofReal]; rfl
  rw [Finset.sum_congr rfl fun a _ => h1 a, ← Complex.re_sum, ← Complex.re_sum]
  congr 1
  show _ = (((fun i => star (fitErr bg S eps z i)) ᵥ* S) ᵥ* J.map fun r => (r : ℂ)) ⬝ᵥ fun a => (v a : ℂ)
  rw [← Matrix.dotProduct_mulVec, ← Matrix.dotProduct_mulVec]
  have h2 : (J.map fun r => (r : ℂ)) *ᵥ (fun a => (v a : ℂ)) = fun j => ((J *ᵥ v) j : ℂ) := by
    funext j
    simp [Matrix.mulVec, dotProduct]
  rw [h2]
  rfl

/-- C92, `Fit2Eps`, for every differentiable parametrization: the gradient of the value is twice what the code
reports. -/
theorem fit_gradient_half (z : (Fin k → ℝ) → Fin m → ℝ) (J : Matrix (Fin m) (Fin k) ℝ) (p : Fin k → ℝ)
    (hz : HasFDerivAt z (LinearMap.toContinuousLinearMap J.mulVecLin) p) :
    Grad (fun q => fitValue bg S eps (z q)) (fun a => 2 * fitGrad bg S eps (z p) J a) p := by
  have h1 : HasFDerivAt (fun q => fitErr bg S eps (z q))
      ((realL S).comp (LinearMap.toContinuousLinearMap J.mulVecLin)) p := by
    have := ((realL S).hasFDerivAt (x := z p)).comp p hz
    exact (this.const_add bg).sub_const eps
  have h2 : ∀ i, HasFDerivAt (fun q => ‖fitErr bg S eps (z q) i‖ ^ 2) _ p := fun i =>
    (((ContinuousLinearMap.proj (R := ℝ) (φ := fun _ : Fin N => ℂ) i).hasFDerivAt
      (x := fitErr bg S eps (z p))).comp p h1).norm_sq
  have h3 := HasFDerivAt.fun_sum (u := Finset.univ) fun i _ => h2 i
  refine ⟨_, h3, fun v => ?_⟩
  simp only [mul_assoc]
  rw [← Finset.mul_sum, ← fit_pairing, Finset.mul_sum]
  rw [_root_.sum_apply]
  refine Finset.sum_congr rfl fun i _ => ?_
  have e := re_star_mul (fitErr bg S eps (z p) i) ((S *ᵥ fun j => ((J *ᵥ v) j : ℂ)) i)
  have e' : (star (fitErr bg S eps (z p) i) * (S *ᵥ fun j => ((J *ᵥ v) j : ℂ)) i).re =
    inner ℝ (fitErr bg S eps (z p) i) ((S *ᵥ fun j => ((J *ᵥ v) j : ℂ)) i) := e
  rw [e', _root_.smul_apply, nsmul_eq_mul]
  rfl

/-- C92: hence the reported gradient vanishes exactly where the gradient does. -/
theorem fit_stationary (z : (Fin k → ℝ) → Fin m → ℝ) (J : Matrix (Fin m) (Fin k) ℝ) (p : Fin k → ℝ)
    (hz : HasFDerivAt z (LinearMap.toContinuousLinearMap J.mulVecLin) p) :
    fitGrad bg S eps (z p) J = 0 ↔ Grad (fun q => fitValue bg S eps (z q)) 0 p := by
  have h := fit_gradient_half bg S eps z J p hz
  constructor
  · intro h0
    have e : (fun a => 2 * fitGrad bg S eps (z p) J a) = 0 := by
      funext a; rw [h0]; simp
    rw [e] at h; exact h
  · intro h0
    have e := h.unique h0
    funext a
    have := congrFun e a
    simpa using this

theorem norm_sq_add (a b : ℂ) : ‖a + b‖ ^ 2 = ‖a‖ ^ 2 + 2 * (star a * b).re + ‖b‖ ^ 2 := by
  rw [← Complex.normSq_eq_norm_sq, ← Complex.normSq_eq_norm_sq, ← Complex.normSq_eq_norm_sq, Complex.normSq_add]
  have : (a * star b).re = (star a * b).re := by simp [Complex.mul_re]
  have h2 : (a * (starRingEnd ℂ) b).re = (star a * b).re := this
  rw [h2]; ring

/-- C92: for an affine parametrization, such as the direct and the cubic ones before discretisation, a point where the
reported gradient vanishes is a global optimum of the fit. -/
theorem fit_stationary_optimal (z0 : Fin m → ℝ) (J : Matrix (Fin m) (Fin k) ℝ) (p : Fin k → ℝ)
    (h : fitGrad bg S eps (z0 + J *ᵥ p) J = 0) (q : Fin k → ℝ) :
    fitValue bg S eps (z0 + J *ᵥ p) ≤ fitValue bg S eps (z0 + J *ᵥ q) := by
  have e : ∀ i, fitErr bg S eps (z0 + J *ᵥ q) i = fitErr bg S eps (z0 + J *ᵥ p) i +
      (S *ᵥ fun j => ((J *ᵥ (q - p)) j : ℂ)) i := by
    intro i
    have h1 : (fun j => ((z0 + J *ᵥ q) j : ℂ)) =
        (fun j => ((z0 + J *ᵥ p) j : ℂ)) + fun j => ((J *ᵥ (q - p)) j : ℂ) := by
      funext j
      rw [Matrix.mulVec_sub]
      simp
    show bg i + (S *ᵥ fun j => ((z0 + J *ᵥ q) j : ℂ)) i - eps i =
      bg i + (S *ᵥ fun j => ((z0 + J *ᵥ p) j : ℂ)) i - eps i + (S *ᵥ fun j => ((J *ᵥ (q - p)) j : ℂ)) i
    rw [h1, Matrix.mulVec_add, Pi.add_apply]
    ring
  unfold fitValue
  have hs : ∑ i, ‖fitErr bg S eps (z0 + J *ᵥ q) i‖ ^ 2 = ∑ i, ‖fitErr bg S eps (z0 + J *ᵥ p) i‖ ^ 2 +
      2 * ∑ i, (star (fitErr bg S eps (z0 + J *ᵥ p) i) * (S *ᵥ fun j => ((J *ᵥ (q - p)) j : ℂ)) i).re +
      ∑ i, ‖(S *ᵥ fun j => ((J *ᵥ (q - p)) j : ℂ)) i‖ ^ 2 := by
    rw [Finset.mul_sum, ← Finset.sum_add_distrib, ← Finset.sum_add_distrib]
    refine Finset.sum_congr rfl fun i _ => ?_
    rw [e, norm_sq_add]
  rw [hs, fit_pairing, h]
  have : 0 ≤ ∑ i, ‖(S *ᵥ fun j => ((J *ᵥ (q - p)) j : ℂ)) i‖ ^ 2 := Finset.sum_nonneg fun i _ => by positivity
  simp only [Pi.zero_apply, zero_mul, Finset.sum_const_zero, mul_zero]
  linarith

theorem id_param (p : Fin k → ℝ) : HasFDerivAt (fun q : Fin k → ℝ => q)
    (LinearMap.toContinuousLinearMap (1 : Matrix (Fin k) (Fin k) ℝ).mulVecLin) p := by
  rw [Matrix.mulVecLin_one]
  exact hasFDerivAt_id _

/-- C92 fails: one cell with permittivity `p` and the target 0, at `p = 1`. -/
theorem fit_gradient_false :
    ¬ Grad (fun q => fitValue (0 : Fin 1 → ℂ) (1 : Matrix (Fin 1) (Fin 1) ℂ) 0 q)
      (fitGrad (0 : Fin 1 → ℂ) (1 : Matrix (Fin 1) (Fin 1) ℂ) 0 (fun _ => 1) (1 : Matrix (Fin 1) (Fin 1) ℝ)) (fun _ => 1) := by
  intro h
  have h2 := fit_gradient_half (0 : Fin 1 → ℂ) (1 : Matrix (Fin 1) (Fin 1) ℂ) 0 (fun q => q) (1 : Matrix (Fin 1) (Fin 1) ℝ) (fun _ => 1) (id_param _)
  have e := congrFun (h.unique h2) 0
  have v : fitGrad (0 : Fin 1 → ℂ) (1 : Matrix (Fin 1) (Fin 1) ℂ) 0 (fun _ => 1) (1 : Matrix (Fin 1) (Fin 1) ℝ) 0 = 1 := by
    simp [fitGrad, fitErr, Matrix.map_one]
  rw [v] at e
  norm_num at e

/-- A fit that is optimal without being perfect: two cells share a parameter, the targets are 1 and 3. -/
example : fitGrad (0 : Fin 2 → ℂ) (fun _ _ => 1 : Matrix (Fin 2) (Fin 1) ℂ) ![1, 3] ((0 : Fin 1 → ℝ) +
    (1 : Matrix (Fin 1) (Fin 1) ℝ) *ᵥ fun _ => 2) (1 : Matrix (Fin 1) (Fin 1) ℝ) = 0 := by
  funext a
  simp [fitGrad, fitErr, Matrix.vecMul, dotProduct, Matrix.mulVec, Fin.sum_univ_two]
  norm_num

/-! ### `DiscretePenaltyFun` -/

section
variable {ι : Type} [Fintype ι]

/-- C92: the gradient of the penalty is the derivative of its value. -/
theorem discrete_gradient (x : Fin 1 → ι → ℝ) : IsGradient (κ := Unit) discreteEval discreteGrad x := by
  refine ⟨ContinuousLinearMap.pi fun _ => ∑ i, (1 - 2 * x 0 i) • entry ℝ ℝ 0 i, ?_, fun g => ⟨_, rfl, fun d => ?_⟩⟩
  · rw [hasFDerivAt_pi]
    intro _
    refine HasFDerivAt.fun_sum fun i _ => ?_
    have h := entry_hasFDerivAt ℝ ℝ (0 : Fin 1) i x
    refine (h.mul (h.const_sub 1)).congr_fderiv ?_
    ext d
    simp only [_root_.add_apply, _root_.smul_apply, _root_.neg_apply, entry_apply, smul_eq_mul]
    ring
  · simp only [Finset.univ_unique, Finset.sum_singleton, ContinuousLinearMap.coe_pi', _root_.sum_apply,
      _root_.smul_apply, entry_apply, smul_eq_mul, Finset.mul_sum, Fin.default_eq_zero]
    refine Finset.sum_congr rfl fun i _ => ?_
    rw [show (default : Unit) = () from rfl]
    ring

/-- C92: on parameters between 0 and 1 the penalty is not negative and at most a quarter per entry, -/
theorem discrete_range (x : Fin 1 → ι → ℝ) (h : ∀ i, 0 ≤ x 0 i ∧ x 0 i ≤ 1) :
    0 ≤ discreteEval x () ∧ discreteEval x () ≤ Fintype.card ι / 4 := by
  constructor
  · exact Finset.sum_nonneg fun i _ => mul_nonneg (h i).1 (by linarith [(h i).2])
  · have : ∑ i, x 0 i * (1 - x 0 i) ≤ ∑ _i : ι, (1 / 4 : ℝ) :=
      Finset.sum_le_sum fun i _ => by nlinarith [sq_nonneg (x 0 i - 1 / 2)]
    refine le_trans this ?_
    simp only [Finset.sum_const, Finset.card_univ, nsmul_eq_mul]
    linarith

/-- and it vanishes exactly for the discrete ones. -/
theorem discrete_zero (x : Fin 1 → ι → ℝ) (h : ∀ i, 0 ≤ x 0 i ∧ x 0 i ≤ 1) :
    discreteEval x () = 0 ↔ ∀ i, x 0 i = 0 ∨ x 0 i = 1 := by
  unfold discreteEval
  rw [Finset.sum_eq_zero_iff_of_nonneg fun i _ => mul_nonneg (h i).1 (by linarith [(h i).2])]
  simp only [Finset.mem_univ, true_imp_iff, mul_eq_zero, sub_eq_zero]
  exact forall_congr' fun i => or_congr_right ⟨Eq.symm, Eq.symm⟩

/-- The gradient pushes every intermediate entry away from one half. -/
theorem discrete_pushes (x : Fin 1 → ι → ℝ) (i : ι) :
    ∃ r, discreteGrad x (fun _ => 1) = some r ∧ (x 0 i < 1 / 2 ↔ 0 < r 0 i) ∧ (1 / 2 < x 0 i ↔ r 0 i < 0) := by
  refine ⟨_, rfl, ?_, ?_⟩
  · constructor <;> intro h <;> dsimp only at * <;> linarith
  · constructor <;> intro h <;> dsimp only at * <;> linarith

example : ∀ i : Fin 2, 0 ≤ (fun (_ : Fin 1) (i : Fin 2) => if i = 0 then (1 : ℝ) else 1 / 3) 0 i ∧
    (fun (_ : Fin 1) (i : Fin 2) => if i = 0 then (1 : ℝ) else 1 / 3) 0 i ≤ 1 := by
  intro i; dsimp only; split <;> norm_num

end

/-! ### Fabrication penalties -/

/-- The limit of a length of `l`, made `c` times stricter, on a grid with spacing `dx`: half wavelengths of the fine grid,
whose spacing is `dx / 2`. -/
noncomputable def limit (dx c l : ℝ) : ℝ := Real.pi / (c * (l / (dx / 2)))

theorem limit_gap (dx c l : ℝ) : c⁻¹ * (Real.pi / (l / (dx / 2))) = limit dx c l := by
  unfold limit
  rw [div_mul_eq_div_div_swap, div_eq_mul_inv _ c]
  ring

/-- C92: what a fabrication constraint of a plan computes. The factors make the gap 1.2 times and the curvature 1.1
times as large as asked for. -/
theorem fab_plan (P : Penalties k) (dx minCurv minGap : ℝ) (b : Bool) (p : Fin k → ℝ) :
    let lg := limit dx (if b then 1.2 else 1) minGap
    let lc := limit dx (if b then 1.1 else 1) minCurv
    (createFab dx minCurv minGap "gap" b).bind (·.value P p) = some (P.gap lg p) ∧
    (createFab dx minCurv minGap "curv" b).bind (·.value P p) = some (P.curv lc p) ∧
    (createFab dx minCurv minGap "gap_and_curve" b).bind (·.value P p) = some (P.curv lc p + P.gap lg p) := by
  have hg : (mkFabPen (minGap / (dx / 2)) (minCurv / (dx / 2)) 0 b).gapFactor *
      (Real.pi / (minGap / (dx / 2))) = limit dx (if b then 1.2 else 1) minGap := by
    rw [← limit_gap]; cases b <;> simp [mkFabPen]
  have hc : (mkFabPen (minGap / (dx / 2)) (minCurv / (dx / 2)) 0 b).curvFactor *
      (Real.pi / (minCurv / (dx / 2))) = limit dx (if b then 1.1 else 1) minCurv := by
    rw [← limit_gap]; cases b <;> simp [mkFabPen]
  simp only [mkFabPen] at hg hc
  simp [createFab, methodOf, FabPen.value, mkFabPen, hg, hc]

/-- Any other name of a method is refused. -/
theorem fab_plan_refuses (dx minCurv minGap : ℝ) (s : String) (b : Bool) :
    createFab dx minCurv minGap s b = none ↔ s ≠ "gap" ∧ s ≠ "curv" ∧ s ≠ "gap_and_curve" := by
  unfold createFab methodOf
  split_ifs with h1 h2 h3 <;> simp_all

/-- C92: if the gradients of the two penalties are right, that of the constraint is. -/
theorem fab_gradient (P : Penalties k) (f : FabPen) (p : Fin k → ℝ) (hm : f.method = 0 ∨ f.method = 1 ∨ f.method = 2)
    (hg : ∀ l, Grad (P.gap l) (P.gapGrad l p) p) (hc : ∀ l, Grad (P.curv l) (P.curvGrad l p) p) :
    ∃ g F, f.grad P p = some g ∧ (∀ q, f.value P q = some (F q)) ∧ Grad F g p := by
  rcases hm with h | h | h
  · exact ⟨_, P.gap (f.gapFactor * f.dGap), by simp [FabPen.grad, h], fun q => by simp [FabPen.value, h], hg _⟩
  · exact ⟨_, P.curv (f.curvFactor * f.dCurv), by simp [FabPen.grad, h], fun q => by simp [FabPen.value, h], hc _⟩
  · refine ⟨P.curvGrad (f.curvFactor * f.dCurv) p + P.gapGrad (f.gapFactor * f.dGap) p,
      fun q => P.curv (f.curvFactor * f.dCurv) q + P.gap (f.gapFactor * f.dGap) q, by simp [FabPen.grad, h],
      fun q => by simp [FabPen.value, h], ?_⟩
    obtain ⟨L, hL, e⟩ := hc (f.curvFactor * f.dCurv)
    obtain ⟨L', hL', e'⟩ := hg (f.gapFactor * f.dGap)
    refine ⟨L + L', hL.add hL', fun v => ?_⟩
    rw [_root_.add_apply, e, e', ← Finset.sum_add_distrib]
    exact Finset.sum_congr rfl fun i _ => by rw [Pi.add_apply]; ring

/-- C92: the same for the constraint of the old-style problems. -/
theorem old_fab_gradient (P : Penalties k) (d w : ℝ) (method : Int) (p : Fin k → ℝ)
    (hg : ∀ l, Grad (P.gap l) (P.gapGrad l p) p) (hc : ∀ l, Grad (P.curv l) (P.curvGrad l p) p) :
    Grad (oldFabValue d w method P) (oldFabGrad d w method P p) p := by
  obtain ⟨L, hL, e⟩ := hc (Real.pi / (1.15 * d))
  obtain ⟨L', hL', e'⟩ := hg (Real.pi / (1.20 * d))
  have h1 : Grad (fun q => w * P.gap (Real.pi / (1.20 * d)) q) (w • P.gapGrad (Real.pi / (1.20 * d)) p) p := by
    refine ⟨_, hL'.const_mul w, fun v => ?_⟩
    rw [_root_.smul_apply, e', smul_eq_mul, Finset.mul_sum]
    exact Finset.sum_congr rfl fun i _ => by rw [Pi.smul_apply, smul_eq_mul]; ring
  by_cases m1 : method = 1
  · subst m1
    exact h1
  by_cases m2 : method = 2
  · subst m2
    refine ⟨_, (hL.const_mul w).add (hL'.const_mul w), fun v => ?_⟩
    show (w • L + w • L') v = ∑ i, (w • P.curvGrad (Real.pi / (1.15 * d)) p +
      w • P.gapGrad (Real.pi / (1.20 * d)) p) i * v i
    rw [_root_.add_apply, _root_.smul_apply, _root_.smul_apply, e, e', smul_eq_mul, smul_eq_mul, Finset.mul_sum,
      Finset.mul_sum, ← Finset.sum_add_distrib]
    exact Finset.sum_congr rfl fun i _ => by
      rw [Pi.add_apply, Pi.smul_apply, Pi.smul_apply, smul_eq_mul, smul_eq_mul]; ring
  · have ev : oldFabValue d w method P = fun q => w * P.gap (Real.pi / (1.20 * d)) q := by
      funext q; simp [oldFabValue, m1, m2]
    have eg : oldFabGrad d w method P p = w • P.gapGrad (Real.pi / (1.20 * d)) p := by simp [oldFabGrad, m1, m2]
    rw [ev, eg]; exact h1

/-- Penalties with gradients: both are the square of a parameter. -/
example : ∃ P : Penalties 1, (∀ l p, Grad (P.gap l) (P.gapGrad l p) p) ∧ (∀ l p, Grad (P.curv l) (P.curvGrad l p) p) ∧
    P.gap 1 (fun _ => 1) ≠ 0 := by
  have h : ∀ p : Fin 1 → ℝ, Grad (fun q => q 0 ^ 2) (fun _ => 2 * p 0) p := by
    intro p
    have h1 : HasFDerivAt (fun q : Fin 1 → ℝ => q 0) (ContinuousLinearMap.proj (R := ℝ) (φ := fun _ : Fin 1 => ℝ) 0) p :=
      (ContinuousLinearMap.proj (R := ℝ) (φ := fun _ : Fin 1 => ℝ) 0).hasFDerivAt
    exact ⟨_, h1.pow 2, fun v => by simp⟩
  exact ⟨⟨fun _ q => q 0 ^ 2, fun _ q => q 0 ^ 2, fun _ p _ => 2 * p 0, fun _ p _ => 2 * p 0⟩, fun _ p => h p,
    fun _ p => h p, by simp⟩

/-- The documented meaning of method 1 of both classes, `applies the gap and curvature constraint`, fails: the new class
leaves out the gap, -/
theorem fab_method_one_false (P : Penalties k) (f : FabPen) (hm : f.method = 1) (p : Fin k → ℝ)
    (h : P.gap (f.gapFactor * f.dGap) p ≠ 0) :
    f.value P p ≠ some (P.curv (f.curvFactor * f.dCurv) p + P.gap (f.gapFactor * f.dGap) p) := by
  simp [FabPen.value, hm, h]

/-- and the old class the curvature. -/
theorem old_fab_method_one_false (P : Penalties k) (d w : ℝ) (hw : w ≠ 0) (p : Fin k → ℝ)
    (h : P.curv (Real.pi / (1.15 * d)) p ≠ 0) :
    oldFabValue d w 1 P p ≠ w * P.curv (Real.pi / (1.15 * d)) p + w * P.gap (Real.pi / (1.20 * d)) p := by
  simp [oldFabValue, h, hw]

end Verif.Obj.Structure
