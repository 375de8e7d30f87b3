import Mathlib.Analysis.Matrix.Normed
import Mathlib.Analysis.Calculus.FDeriv.Pi
import Mathlib.Analysis.Calculus.FDeriv.Mul
import Mathlib.Analysis.SpecialFunctions.Sqrt
import Mathlib.Topology.MetricSpace.ProperSpace.Lemmas
import Mathlib.Analysis.Complex.Basic
import Mathlib.Tactic.FieldSimp
import Mathlib.Tactic.LinearCombination
import Mathlib.Tactic.Positivity
/-
Derivatives of generalised eigenvalues `K E = λ ε E` of a Hermitian matrix with respect to the diagonal `ε`. Nothing is assumed about how the
eigenvectors depend on `ε`.
-/
namespace Verif.Fdfd.Eig
open Matrix Filter Topology Asymptotics

variable {ι : Type*} [Fintype ι]

/-- Carathéodory's criterion. -/
theorem hasFDerivAt_of_slope {f : (ι → ℝ) → ℝ} {x : ι → ℝ} {G : (ι → ℝ) → ι → ℝ} (hG : ∀ p, ContinuousAt (fun e => G e p) x)
    (hf : ∀ᶠ e in 𝓝 x, f e - f x = ∑ p, G e p * (e p - x p)) (L : (ι → ℝ) →L[ℝ] ℝ) (hL : ∀ v, L v = ∑ p, G x p * v p) :
    HasFDerivAt f L x := by
  rw [hasFDerivAt_iff_isLittleO]
  have h1 : (fun e => f e - f x - L (e - x)) =ᶠ[𝓝 x] fun e => ∑ p, (G e p - G x p) * (e p - x p) := by
    filter_upwards [hf] with e he
    rw [he, hL, ← Finset.sum_sub_distrib]
    refine Finset.sum_congr rfl fun p _ => ?_
    rw [Pi.sub_apply]
    ring
  refine IsLittleO.congr' ?_ h1.symm EventuallyEq.rfl
  refine IsLittleO.fun_sum fun p _ => ?_
  have h2 : (fun e => G e p - G x p) =o[𝓝 x] fun _ => (1 : ℝ) := by
    rw [isLittleO_one_iff]
    have := (hG p).tendsto.sub_const (G x p)
    simpa using this
  have h3 : (fun e : ι → ℝ => e p - x p) =O[𝓝 x] fun e => e - x := by
    refine IsBigO.of_bound 1 (Eventually.of_forall fun e => ?_)
    rw [one_mul]
    exact norm_le_pi_norm (e - x) p
  have h4 := h2.mul_isBigO h3.norm_right
  simpa using h4.norm_right

/-- `Σ conj(a) e b`. -/
def edot (e : ι → ℝ) (a b : ι → ℂ) : ℂ := ∑ p, star (a p) * ((e p : ℂ) * b p)

theorem edot_smul (e : ι → ℝ) (a b : ι → ℂ) (c : ℂ) : edot e a (c • b) = c * edot e a b := by
  simp only [edot, Finset.mul_sum, Pi.smul_apply, smul_eq_mul]
  exact Finset.sum_congr rfl fun p _ => by ring

theorem edot_self (e : ι → ℝ) (a : ι → ℂ) : edot e a a = ((∑ p, e p * ‖a p‖ ^ 2 : ℝ) : ℂ) := by
  simp only [edot]
  push_cast
  refine Finset.sum_congr rfl fun p _ => ?_
  have : star (a p) * a p = ((‖a p‖ ^ 2 : ℝ) : ℂ) := by
    rw [mul_comm]; simpa [Complex.normSq_eq_norm_sq] using Complex.mul_conj (a p)
  rw [show star (a p) * ((e p : ℂ) * a p) = (e p : ℂ) * (star (a p) * a p) by ring, this]
  push_cast
  ring

theorem energy_pos {e : ι → ℝ} (he : ∀ p, 0 < e p) {a : ι → ℂ} (ha : a ≠ 0) : 0 < ∑ p, e p * ‖a p‖ ^ 2 := by
  obtain ⟨p, hp⟩ := Function.ne_iff.1 ha
  refine Finset.sum_pos' (fun q _ => mul_nonneg (he q).le (sq_nonneg _)) ⟨p, Finset.mem_univ _, ?_⟩
  have : 0 < ‖a p‖ := norm_pos_iff.2 hp
  have := he p
  positivity

/-- The Hermitian form of a product. -/
theorem hermitian_dot {K : Matrix ι ι ℂ} (hK : Kᴴ = K) (a b : ι → ℂ) :
    ∑ p, star (a p) * (K *ᵥ b) p = ∑ p, star ((K *ᵥ a) p) * b p := by
  have h := dotProduct_mulVec (star a) K b
  have h2 : star a ᵥ* K = star (K *ᵥ a) := by
    rw [star_mulVec, hK]
  rw [h2] at h
  simpa [dotProduct] using h

/-- An eigenvalue is real. -/
theorem eigen_star {K : Matrix ι ι ℂ} {e : ι → ℝ} {E : ι → ℂ} {l : ℝ}
    (h : K *ᵥ E = fun p => (l : ℂ) * ((e p : ℂ) * E p)) (p : ι) : star ((K *ᵥ E) p) = (l : ℂ) * ((e p : ℂ) * star (E p)) := by
  rw [h]
  simp

/-- The derivative of an eigenvalue. The eigenvectors may be any; only the eigenvalue is assumed to be continuous, and to be simple at the
point. -/
theorem eigenvalue_deriv {K : Matrix ι ι ℂ} (hK : Kᴴ = K) {e0 : ι → ℝ} (he0 : ∀ p, 0 < e0 p) {E : (ι → ℝ) → ι → ℂ}
    {lam : (ι → ℝ) → ℝ} (hne : ∀ᶠ e in 𝓝 e0, E e ≠ 0)
    (hE : ∀ᶠ e in 𝓝 e0, K *ᵥ E e = fun p => (lam e : ℂ) * ((e p : ℂ) * E e p)) (hc : ContinuousAt lam e0)
    (hs : ∀ w : ι → ℂ, K *ᵥ w = (fun p => (lam e0 : ℂ) * ((e0 p : ℂ) * w p)) → ∃ c : ℂ, w = c • E e0)
    (L : (ι → ℝ) →L[ℝ] ℝ)
    (hL : ∀ v, L v = ∑ p, -lam e0 * ‖E e0 p‖ ^ 2 / (∑ q, e0 q * ‖E e0 q‖ ^ 2) * v p) : HasFDerivAt lam L e0 := by
  have hne0 : E e0 ≠ 0 := hne.self_of_nhds
  have hE0 := hE.self_of_nhds
  have hpos := energy_pos he0 hne0
  -- along any ultrafilter the normalised eigenvectors converge to a multiple of the one at the point
  have hlim : ∀ F : Ultrafilter (ι → ℝ), (F : Filter (ι → ℝ)) ≤ 𝓝 e0 → ∃ c : ℂ, c ≠ 0 ∧
      Tendsto (fun e => ((‖E e‖ : ℝ) : ℂ)⁻¹ • E e) F (𝓝 (c • E e0)) := by
    intro F hF
    have hcomp : IsCompact (Metric.sphere (0 : ι → ℂ) 1) := isCompact_sphere 0 1
    have hmem : ∀ᶠ e in (F : Filter (ι → ℝ)), ((‖E e‖ : ℝ) : ℂ)⁻¹ • E e ∈ Metric.sphere (0 : ι → ℂ) 1 := by
      filter_upwards [hF hne] with e he
      rw [mem_sphere_zero_iff_norm, norm_smul, norm_inv, Complex.norm_real, norm_norm, inv_mul_cancel₀ (norm_ne_zero_iff.2 he)]
    obtain ⟨w, hw, hlimw⟩ := hcomp.ultrafilter_le_nhds (F.map fun e => ((‖E e‖ : ℝ) : ℂ)⁻¹ • E e)
      (by rw [Ultrafilter.coe_map]; exact tendsto_principal.2 hmem)
    have ht : Tendsto (fun e => ((‖E e‖ : ℝ) : ℂ)⁻¹ • E e) F (𝓝 w) := by
      rw [Ultrafilter.coe_map] at hlimw
      exact hlimw
    have heig : K *ᵥ w = fun p => (lam e0 : ℂ) * ((e0 p : ℂ) * w p) := by
      have h1 : Tendsto (fun e => K *ᵥ (((‖E e‖ : ℝ) : ℂ)⁻¹ • E e)) F (𝓝 (K *ᵥ w)) :=
        ((Continuous.matrix_mulVec continuous_const continuous_id).tendsto w).comp ht
      have h2 : Tendsto (fun e => fun p => (lam e : ℂ) * ((e p : ℂ) * (((‖E e‖ : ℝ) : ℂ)⁻¹ • E e) p)) F
          (𝓝 fun p => (lam e0 : ℂ) * ((e0 p : ℂ) * w p)) := by
        rw [tendsto_pi_nhds]
        intro p
        have h3 : Tendsto (fun e => ((lam e : ℝ) : ℂ)) (F : Filter (ι → ℝ)) (𝓝 (lam e0 : ℂ)) :=
          (Complex.continuous_ofReal.tendsto _).comp (hc.tendsto.mono_left hF)
        have h4 : Tendsto (fun e : ι → ℝ => ((e p : ℝ) : ℂ)) (F : Filter (ι → ℝ)) (𝓝 (e0 p : ℂ)) :=
          (Complex.continuous_ofReal.tendsto _).comp (((continuous_apply p).tendsto e0).mono_left hF)
        exact h3.mul (h4.mul ((tendsto_pi_nhds.1 ht) p))
      refine tendsto_nhds_unique h1 (h2.congr' ?_)
      filter_upwards [hF hE] with e he
      rw [mulVec_smul, he]
      funext p
      simp only [Pi.smul_apply, smul_eq_mul]
      ring
    obtain ⟨c, rfl⟩ := hs w heig
    refine ⟨c, ?_, ht⟩
    rintro rfl
    rw [zero_smul] at hw
    simp at hw
  have hscale : ∀ e, E e ≠ 0 → ((‖E e‖ : ℝ) : ℂ)⁻¹ ≠ 0 := by
    intro e he
    refine inv_ne_zero ?_
    exact_mod_cast norm_ne_zero_iff.2 he
  have hdot : ∀ F : Ultrafilter (ι → ℝ), (F : Filter (ι → ℝ)) ≤ 𝓝 e0 → ∀ c : ℂ,
      Tendsto (fun e => ((‖E e‖ : ℝ) : ℂ)⁻¹ • E e) F (𝓝 (c • E e0)) →
      Tendsto (fun e => edot e (E e0) (((‖E e‖ : ℝ) : ℂ)⁻¹ • E e)) F (𝓝 (edot e0 (E e0) (c • E e0))) := by
    intro F hF c ht
    refine tendsto_finsetSum _ fun p _ => ?_
    have h4 : Tendsto (fun e : ι → ℝ => ((e p : ℝ) : ℂ)) (F : Filter (ι → ℝ)) (𝓝 (e0 p : ℂ)) :=
      (Complex.continuous_ofReal.tendsto _).comp (((continuous_apply p).tendsto e0).mono_left hF)
    exact (h4.mul ((tendsto_pi_nhds.1 ht) p)).const_mul _
  have hdot0 : edot e0 (E e0) (E e0) ≠ 0 := by
    rw [edot_self]
    exact_mod_cast hpos.ne'
  have hDne : ∀ᶠ e in 𝓝 e0, edot e (E e0) (E e) ≠ 0 := by
    rw [Filter.Eventually, mem_iff_ultrafilter]
    intro F hF
    obtain ⟨c, hc0, ht⟩ := hlim F hF
    have h5 := hdot F hF c ht
    have h6 : ∀ᶠ e in (F : Filter (ι → ℝ)), edot e (E e0) (((‖E e‖ : ℝ) : ℂ)⁻¹ • E e) ≠ 0 :=
      h5.eventually_ne (by rw [edot_smul]; exact mul_ne_zero hc0 hdot0)
    filter_upwards [h6] with e he
    rw [edot_smul] at he
    exact right_ne_zero_of_mul he
  -- the slope
  refine hasFDerivAt_of_slope (G := fun e p => -lam e0 * (star (E e0 p) * E e p / edot e (E e0) (E e)).re) ?_ ?_ L ?_
  · intro p
    refine continuousAt_const.mul ?_
    refine Complex.continuous_re.continuousAt.comp ?_
    rw [ContinuousAt, tendsto_iff_ultrafilter]
    intro F hF
    obtain ⟨c, hc0, ht⟩ := hlim F hF
    have h5 := hdot F hF c ht
    have h7 : Tendsto (fun e => star (E e0 p) * (((‖E e‖ : ℝ) : ℂ)⁻¹ • E e) p / edot e (E e0) (((‖E e‖ : ℝ) : ℂ)⁻¹ • E e)) F
        (𝓝 (star (E e0 p) * (c • E e0) p / edot e0 (E e0) (c • E e0))) :=
      (((tendsto_pi_nhds.1 ht) p).const_mul _).div h5 (by rw [edot_smul]; exact mul_ne_zero hc0 hdot0)
    have h8 : star (E e0 p) * (c • E e0) p / edot e0 (E e0) (c • E e0) = star (E e0 p) * E e0 p / edot e0 (E e0) (E e0) := by
      rw [edot_smul, Pi.smul_apply, smul_eq_mul, mul_left_comm, mul_div_mul_left _ _ hc0]
    rw [h8] at h7
    refine h7.congr' ?_
    filter_upwards [hF hne] with e he
    rw [edot_smul, Pi.smul_apply, smul_eq_mul, mul_left_comm, mul_div_mul_left _ _ (hscale e he)]
  · filter_upwards [hDne, hE] with e hD he
    have h9 := hermitian_dot hK (E e0) (E e)
    rw [he] at h9
    have h10 : ∑ p, star (E e0 p) * ((lam e : ℂ) * ((e p : ℂ) * E e p)) = (lam e : ℂ) * edot e (E e0) (E e) := by
      rw [edot, Finset.mul_sum]
      exact Finset.sum_congr rfl fun p _ => by ring
    have h11 : ∑ p, star ((K *ᵥ E e0) p) * E e p = (lam e0 : ℂ) * edot e0 (E e0) (E e) := by
      rw [edot, Finset.mul_sum]
      refine Finset.sum_congr rfl fun p _ => ?_
      rw [eigen_star hE0]
      ring
    rw [h10, h11] at h9
    have h12 : edot e (E e0) (E e) - edot e0 (E e0) (E e) = ∑ p, star (E e0 p) * E e p * ((e p - e0 p : ℝ) : ℂ) := by
      rw [edot, edot, ← Finset.sum_sub_distrib]
      refine Finset.sum_congr rfl fun p _ => ?_
      push_cast
      ring
    have h13 : ((lam e - lam e0 : ℝ) : ℂ) = ∑ p, -(lam e0 : ℂ) * (star (E e0 p) * E e p / edot e (E e0) (E e)) * ((e p - e0 p : ℝ) : ℂ) := by
      have h14 : ((lam e - lam e0 : ℝ) : ℂ) * edot e (E e0) (E e)
          = -(lam e0 : ℂ) * ∑ p, star (E e0 p) * E e p * ((e p - e0 p : ℝ) : ℂ) := by
        rw [← h12]
        push_cast
        linear_combination h9
      rw [← mul_div_cancel_right₀ ((lam e - lam e0 : ℝ) : ℂ) hD, h14, Finset.mul_sum, Finset.sum_div]
      exact Finset.sum_congr rfl fun p _ => by ring
    have h15 := congrArg Complex.re h13
    rw [Complex.ofReal_re, Complex.re_sum] at h15
    rw [h15]
    refine Finset.sum_congr rfl fun p _ => ?_
    rw [mul_comm, Complex.re_ofReal_mul, ← Complex.ofReal_neg, Complex.re_ofReal_mul]
    ring
  · intro v
    rw [hL]
    refine Finset.sum_congr rfl fun p _ => ?_
    congr 1
    rw [edot_self]
    have : star (E e0 p) * E e0 p = ((‖E e0 p‖ ^ 2 : ℝ) : ℂ) := by
      rw [mul_comm]; simpa [Complex.normSq_eq_norm_sq] using Complex.mul_conj (E e0 p)
    rw [this, ← Complex.ofReal_div, Complex.ofReal_re]
    ring

end Verif.Fdfd.Eig
