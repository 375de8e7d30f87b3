import Mathlib.Topology.Instances.Matrix
import Mathlib.LinearAlgebra.Matrix.NonsingularInverse
import Mathlib.Analysis.Calculus.FDeriv.Pi
import Mathlib.Analysis.Calculus.FDeriv.Linear
import Mathlib.Analysis.Calculus.FDeriv.Comp
import Mathlib.Analysis.Calculus.FDeriv.RestrictScalars
import Mathlib.Analysis.Complex.Basic
import Mathlib.Topology.Algebra.Module.FiniteDimension
/-
The solution of `(K - c diag ε) x = b` as a function of `ε`.
-/
namespace Verif.Fdfd
open Matrix
variable {ι : Type} [Fintype ι] [DecidableEq ι]

theorem inv_continuousAt {α : Type} [TopologicalSpace α] (W : α → Matrix ι ι ℂ) (hW : Continuous W) (a : α)
    (hu : IsUnit (W a).det) : ContinuousAt (fun x => (W x)⁻¹) a := by
  have h1 : ContinuousAt (fun x => ((W x).det)⁻¹) a :=
    ContinuousAt.inv₀ hW.matrix_det.continuousAt hu.ne_zero
  have h2 : Continuous (fun x => (W x).adjugate) := hW.matrix_adjugate
  have h3 : (fun x => (W x)⁻¹) = fun x => ((W x).det)⁻¹ • (W x).adjugate := by
    funext x
    rw [Matrix.inv_def, Ring.inverse_eq_inv']
  rw [h3]
  exact h1.smul h2.continuousAt

/-- The derivative: `dx = c (K - c diag ε)⁻¹ (dε x)`. -/
theorem field_hasFDerivAt (K : Matrix ι ι ℂ) (c : ℂ) (b : ι → ℂ) (eps : ι → ℂ)
    (hu : IsUnit (K - c • Matrix.diagonal eps).det) :
    ∃ L : (ι → ℂ) →L[ℂ] (ι → ℂ),
      (∀ v, L v = c • ((K - c • Matrix.diagonal eps)⁻¹ *ᵥ
        (fun p => v p * ((K - c • Matrix.diagonal eps)⁻¹ *ᵥ b) p))) ∧
      HasFDerivAt (fun e : ι → ℂ => (K - c • Matrix.diagonal e)⁻¹ *ᵥ b) L eps := by
  set W : (ι → ℂ) → Matrix ι ι ℂ := fun e => K - c • Matrix.diagonal e with hW
  have hWc : Continuous W := by
    rw [hW]
    exact continuous_const.sub (continuous_id.matrix_diagonal.const_smul c)
  set x := (W eps)⁻¹ *ᵥ b with hx
  let Llin : (ι → ℂ) →ₗ[ℂ] (ι → ℂ) :=
    { toFun := fun v => c • ((W eps)⁻¹ *ᵥ (fun p => v p * x p))
      map_add' := by
        intro u v
        rw [← smul_add, ← Matrix.mulVec_add]
        congr 2; funext p; exact add_mul _ _ _
      map_smul' := by
        intro a v
        rw [RingHom.id_apply, smul_comm a c, ← Matrix.mulVec_smul _ a]
        congr 2; funext p; simp [mul_assoc] }
  refine ⟨LinearMap.toContinuousLinearMap Llin, fun v => rfl, ?_⟩
  have hdet : ∀ᶠ e in nhds eps, IsUnit (W e).det := by
    have : ContinuousAt (fun e => (W e).det) eps := hWc.matrix_det.continuousAt
    filter_upwards [this.eventually_ne hu.ne_zero] with e he
    exact IsUnit.mk0 _ he
  have hinv := inv_continuousAt W hWc eps hu
  rw [hasFDerivAt_pi']
  intro i
  rw [hasFDerivAt_iff_isLittleO]
  have heq : (fun e : ι → ℂ => ((W e)⁻¹ *ᵥ b) i - ((W eps)⁻¹ *ᵥ b) i -
      ((ContinuousLinearMap.proj i).comp (LinearMap.toContinuousLinearMap Llin)) (e - eps)) =ᶠ[nhds eps]
      fun e => ∑ p, (c * ((W e)⁻¹ i p - (W eps)⁻¹ i p) * x p) * (e p - eps p) := by
    filter_upwards [hdet] with e he
    have h1 : (W e)⁻¹ *ᵥ b - x = c • ((W e)⁻¹ *ᵥ (fun p => (e p - eps p) * x p)) := by
      have hb : b = W eps *ᵥ x := by
        rw [hx, Matrix.mulVec_mulVec, Matrix.mul_nonsing_inv _ hu, Matrix.one_mulVec]
      have hxx : x = (W e)⁻¹ *ᵥ (W e *ᵥ x) := by
        rw [Matrix.mulVec_mulVec, Matrix.nonsing_inv_mul _ he, Matrix.one_mulVec]
      conv_lhs => rw [hxx]
      conv_lhs =>
        enter [1]
        rw [hb]
      rw [← Matrix.mulVec_sub, ← Matrix.sub_mulVec, ← Matrix.mulVec_smul]
      congr 1
      have : W eps - W e = c • Matrix.diagonal (fun p => e p - eps p) := by
        rw [hW]
        ext p q
        simp only [Matrix.sub_apply, Matrix.smul_apply, Matrix.diagonal_apply, smul_eq_mul]
        split <;> ring
      rw [this, Matrix.smul_mulVec]
      congr 1
      funext p
      rw [Matrix.mulVec_diagonal]
    have h2 : ((W e)⁻¹ *ᵥ b) i - ((W eps)⁻¹ *ᵥ b) i =
        c * ∑ p, (W e)⁻¹ i p * ((e p - eps p) * x p) := congrFun h1 i
    rw [h2]
    show c * ∑ p, (W e)⁻¹ i p * ((e p - eps p) * x p) -
      c * ∑ p, (W eps)⁻¹ i p * ((e p - eps p) * x p) = _
    rw [← mul_sub, ← Finset.sum_sub_distrib, Finset.mul_sum]
    apply Finset.sum_congr rfl
    intro p _
    ring
  refine Asymptotics.IsLittleO.congr' ?_ heq.symm (Filter.EventuallyEq.refl _ _)
  refine Asymptotics.IsLittleO.fun_sum fun p _ => ?_
  have ha : Filter.Tendsto (fun e : ι → ℂ => c * ((W e)⁻¹ i p - (W eps)⁻¹ i p) * x p) (nhds eps) (nhds 0) := by
    have h0 : ContinuousAt (fun e => (W e)⁻¹ i p) eps :=
      (continuous_apply_apply i p).continuousAt.comp hinv
    have h1 : ContinuousAt (fun e => c * ((W e)⁻¹ i p - (W eps)⁻¹ i p) * x p) eps :=
      (continuousAt_const.mul (h0.sub continuousAt_const)).mul continuousAt_const
    have h2 := h1.tendsto
    simpa using h2
  have hb : (fun e : ι → ℂ => e p - eps p) =O[nhds eps] fun e => e - eps := by
    refine Asymptotics.IsBigO.of_bound 1 (Filter.Eventually.of_forall fun e => ?_)
    rw [one_mul]
    exact norm_le_pi_norm (e - eps) p
  have := ((Asymptotics.isLittleO_one_iff ℝ).2 ha).mul_isBigO hb.norm_right
  simp only [one_mul] at this
  exact this.of_norm_right

end Verif.Fdfd
