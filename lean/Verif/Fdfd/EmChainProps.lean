import Verif.Fdfd.EmChain
import Verif.Fdfd.AdjointProps
import Mathlib.Analysis.SpecialFunctions.Sqrt
import Mathlib.Analysis.InnerProductSpace.Calculus
import Mathlib.LinearAlgebra.Matrix.Charpoly.Coeff
/-
Property C105: gradients of overlaps and of permittivity differences with respect to the structure.
-/
namespace Verif.Fdfd
open Matrix
variable {n m : Nat}

/-! ### Specification -/

/-- `F` changes by `Re (g v)` to first order if the number `x` is changed by `v`. -/
def NumberGrad (φ : ℂ → ℝ) (x g : ℂ) : Prop := ∃ L : ℂ →L[ℝ] ℝ, (∀ v, L v = (g * v).re) ∧ HasFDerivAt φ L x

/-- `F` changes by `Re (Σ g v)` to first order if the field `x` is changed by `v`. -/
def FieldGrad (F : VField n → ℝ) (x g : VField n) : Prop :=
  ∃ L : VField n →L[ℝ] ℝ, (∀ v, L v = ∑ p, (g p * v p).re) ∧ HasFDerivAt F L x

/-- `F` changes by `Σ g v` to first order if the structure `z` is changed by `v`: `g` is the gradient. -/
def StructGrad (F : (Fin m → ℝ) → ℝ) (z g : Fin m → ℝ) : Prop :=
  ∃ L : (Fin m → ℝ) →L[ℝ] ℝ, (∀ v, L v = ∑ j, g j * v j) ∧ HasFDerivAt F L z

/-! ### C105 -/

/-- C105: `AbsoluteValue` of a number other than zero, followed by a function with the derivative `w`. -/
theorem abs_fn_gradient {φ : ℝ → ℝ} {x : ℂ} (hx : x ≠ 0) {w : ℝ} (hφ : HasDerivAt φ w (absFnEval x)) :
    ∃ g, absFnGrad x w = some g ∧ NumberGrad (fun y => φ (absFnEval y)) x g := by
  have hn : ‖x‖ ≠ 0 := norm_ne_zero_iff.2 hx
  refine ⟨_, if_neg hn, ?_⟩
  have h1 : HasFDerivAt (fun y : ℂ => ‖y‖ ^ 2) (2 • innerSL ℝ x) x := (hasStrictFDerivAt_norm_sq x).hasFDerivAt
  have h2 := h1.sqrt (by positivity)
  have h3 : HasFDerivAt absFnEval ((1 / (2 * Real.sqrt (‖x‖ ^ 2))) • (2 • innerSL ℝ x)) x := by
    refine h2.congr_of_eventuallyEq (Filter.Eventually.of_forall fun y => ?_)
    exact (Real.sqrt_sq (norm_nonneg y)).symm
  refine ⟨_, ?_, hφ.comp_hasFDerivAt x h3⟩
  intro v
  rw [Real.sqrt_sq (norm_nonneg x)]
  simp only [_root_.smul_apply, smul_eq_mul, innerSL_apply_apply, nsmul_eq_mul]
  have hi : inner ℝ x v = (star x * v).re := by
    simp [Complex.inner]; ring
  rw [hi]
  have : ((w : ℂ) * (star x / ((‖x‖ : ℝ) : ℂ)) * v) = ((w / ‖x‖ : ℝ) : ℂ) * (star x * v) := by
    push_cast; ring
  rw [this, Complex.re_ofReal_mul]
  push_cast
  field_simp

/-- C105: at a dark overlap the gradient of the absolute value is not a number. -/
theorem abs_fn_dark (w : ℝ) : absFnGrad 0 w = none := by
  rw [absFnGrad, if_pos norm_zero]

/-- The overlap as a linear function. -/
noncomputable def overlapMap (C : VField n) : VField n →L[ℝ] ℂ :=
  LinearMap.toContinuousLinearMap
    { toFun := fun E => overlapFnEval C E
      map_add' := fun x y => dotProduct_add C x y
      map_smul' := fun a x => by simp [overlapFnEval, dotProduct_smul] }

/-- C105: `OverlapFunction`. -/
theorem overlap_fn_gradient {φ : ℂ → ℝ} {C E : VField n} {g : ℂ} (h : NumberGrad φ (overlapFnEval C E) g) :
    FieldGrad (fun E => φ (overlapFnEval C E)) E (overlapFnGrad C g) := by
  obtain ⟨L, hL, hd⟩ := h
  refine ⟨L.comp (overlapMap C), ?_, HasFDerivAt.comp (g := φ) E hd (overlapMap C).hasFDerivAt⟩
  intro v
  rw [ContinuousLinearMap.comp_apply, hL]
  show (g * (C ⬝ᵥ v)).re = _
  rw [dotProduct, Finset.mul_sum, Complex.re_sum]
  refine Finset.sum_congr rfl fun p _ => ?_
  rw [overlapFnGrad, mul_assoc]

/-- The structure as a part of the permittivity. -/
noncomputable def structMap (S : Matrix (Fin 3 × Fin n) (Fin m) ℂ) : (Fin m → ℝ) →L[ℝ] VField n :=
  LinearMap.toContinuousLinearMap
    { toFun := fun z => S *ᵥ fun j => (z j : ℂ)
      map_add' := fun x y => by
        rw [← mulVec_add]; congr 1; funext j; simp
      map_smul' := fun a x => by
        rw [RingHom.id_apply]
        funext p
        simp only [mulVec, dotProduct, Pi.smul_apply, smul_eq_mul, Complex.real_smul, Complex.ofReal_mul, Finset.mul_sum]
        refine Finset.sum_congr rfl fun j _ => ?_
        ring }

theorem epsilon_hasFDerivAt (bg : VField n) (S : Matrix (Fin 3 × Fin n) (Fin m) ℂ) (z : Fin m → ℝ) :
    HasFDerivAt (epsilonEval bg S) (structMap S) z := by
  have := (structMap S).hasFDerivAt (x := z)
  exact this.const_add bg

/-- C105: `Epsilon`: the structure is real, so that the real part is the gradient. -/
theorem epsilon_gradient {F : VField n → ℝ} {bg : VField n} {S : Matrix (Fin 3 × Fin n) (Fin m) ℂ} {z : Fin m → ℝ} {g : VField n}
    (h : FieldGrad F (epsilonEval bg S z) g) : StructGrad (fun z => F (epsilonEval bg S z)) z (epsilonGrad S g) := by
  obtain ⟨L, hL, hd⟩ := h
  refine ⟨L.comp (structMap S), ?_, HasFDerivAt.comp (g := F) z hd (epsilon_hasFDerivAt bg S z)⟩
  intro v
  rw [ContinuousLinearMap.comp_apply, hL]
  show ∑ p, (g p * (S *ᵥ fun j => (v j : ℂ)) p).re = _
  simp only [epsilonGrad, vecMul, mulVec, dotProduct, Finset.mul_sum, Complex.re_sum, Finset.sum_mul]
  rw [Finset.sum_comm]
  refine Finset.sum_congr rfl fun j _ => Finset.sum_congr rfl fun p _ => ?_
  rw [← mul_assoc, Complex.re_mul_ofReal]

/-- C105: `DiffEpsilon` with a reference that does not move. -/
theorem diff_epsilon_gradient (ref eps : VField n) (w : ℝ) :
    FieldGrad (fun eps => w * diffEpsilonEval ref eps) eps (diffEpsilonGrad ref eps w) := by
  have h1 : ∀ p, HasFDerivAt (fun e : VField n => ‖e p - ref p‖ ^ 2)
      ((2 • innerSL ℝ (eps p - ref p)).comp (ContinuousLinearMap.proj (R := ℝ) (φ := fun _ => ℂ) p)) eps := by
    intro p
    have hp : HasFDerivAt (fun e : VField n => e p - ref p) (ContinuousLinearMap.proj (R := ℝ) (φ := fun _ => ℂ) p) eps :=
      (ContinuousLinearMap.hasFDerivAt (ContinuousLinearMap.proj (R := ℝ) (φ := fun _ => ℂ) p)).sub_const (ref p)
    exact HasFDerivAt.comp (g := fun y : ℂ => ‖y‖ ^ 2) eps (hasStrictFDerivAt_norm_sq (eps p - ref p)).hasFDerivAt hp
  have h2 := (HasFDerivAt.fun_sum (u := Finset.univ) fun p _ => h1 p).const_mul w
  refine ⟨_, ?_, h2⟩
  intro v
  simp only [_root_.smul_apply, smul_eq_mul, _root_.sum_apply, ContinuousLinearMap.comp_apply, ContinuousLinearMap.proj_apply,
    innerSL_apply_apply, nsmul_eq_mul, Finset.mul_sum]
  refine Finset.sum_congr rfl fun p _ => ?_
  have hi : inner ℝ (eps p - ref p) (v p) = (star (eps p - ref p) * v p).re := by
    simp [Complex.inner]; ring
  rw [hi, diffEpsilonGrad, show (w : ℂ) * (2 * star (eps p - ref p)) * v p = ((w * 2 : ℝ) : ℂ) * (star (eps p - ref p) * v p) by
    push_cast; ring, Complex.re_ofReal_mul]
  push_cast; ring

/-- C105: the gradient of the distance to a fixed permittivity with respect to the structure. -/
theorem diff_epsilon_structure (ref bg : VField n) (S : Matrix (Fin 3 × Fin n) (Fin m) ℂ) (z : Fin m → ℝ) :
    StructGrad (fun z => diffEpsilonEval ref (epsilonEval bg S z)) z
      (epsilonGrad S (diffEpsilonGrad ref (epsilonEval bg S z) 1)) := by
  have := epsilon_gradient (diff_epsilon_gradient ref (epsilonEval bg S z) 1)
  simpa only [one_mul] using this

/-- C105: the distance is zero exactly for the same permittivity. -/
theorem diff_epsilon_zero (ref eps : VField n) : 0 ≤ diffEpsilonEval ref eps ∧ (diffEpsilonEval ref eps = 0 ↔ eps = ref) := by
  have h0 : ∀ p ∈ (Finset.univ : Finset (Fin 3 × Fin n)), 0 ≤ ‖eps p - ref p‖ ^ 2 := fun p _ => by positivity
  refine ⟨Finset.sum_nonneg h0, ?_⟩
  rw [diffEpsilonEval, Finset.sum_eq_zero_iff_of_nonneg h0]
  constructor
  · intro h
    funext p
    have := h p (Finset.mem_univ p)
    rw [pow_eq_zero_iff two_ne_zero, norm_eq_zero, sub_eq_zero] at this
    exact this
  · rintro rfl p _
    simp

theorem foldlM_grads {k : Nat} (f : Fin k → VField n) (l : List (Fin k)) (acc : VField n) :
    ((l.map fun i => some (f i)).foldlM (fun acc (g : Option (VField n)) => g.map (acc + ·)) acc) =
      some (acc + (l.map f).sum) := by
  induction l generalizing acc with
  | nil => simp
  | cons a l ih =>
    rw [List.map_cons, List.foldlM_cons]
    simp only [Option.map_some, Option.bind_eq_bind, Option.bind_some]
    rw [ih, List.map_cons, List.sum_cons, add_assoc]

/-- C105: the gradient of any objective `Φ` of the absolute values of any number of overlaps of a simulation, none of them dark, with
respect to the structure. `isReal` is set only if the permittivity is real. -/
theorem overlaps_gradient {sh : Shape} {k : Nat} {c : SimCfg sh} (h : GoodSim c) (bg : VField sh.size)
    (S : Matrix (Fin 3 × Fin sh.size) (Fin m) ℂ) (isReal : Bool)
    (hr : isReal = true → (∀ p, (bg p).im = 0) ∧ ∀ p j, (S p j).im = 0) (Cs : Fin k → VField sh.size) (z : Fin m → ℝ)
    {A : Mat3 sh.size} (hA : waveOp c (epsilonEval bg S z) = some A) (hu : IsUnit A.det) (E : VField sh.size)
    (hE : simFields c (epsilonEval bg S z) = some E) (hdark : ∀ i, overlapFnEval (Cs i) E ≠ 0) (Φ : (Fin k → ℝ) → ℝ) (w : Fin k → ℝ)
    (hΦ : ∃ L : (Fin k → ℝ) →L[ℝ] ℝ, (∀ v, L v = ∑ i, w i * v i) ∧ HasFDerivAt Φ L fun i => ‖∑ p, Cs i p * E p‖) :
    ∃ g, overlapsBackward c bg S isReal Cs z w = some g ∧
      StructGrad (fun z => Φ fun i => ‖∑ p, Cs i p * ((simFields c (epsilonEval bg S z)).getD 0) p‖) z g := by
  have habs : ∀ i, ∃ g, absFnGrad (overlapFnEval (Cs i) E) 1 = some g ∧ NumberGrad (fun y => absFnEval y) (overlapFnEval (Cs i) E) g :=
    fun i => abs_fn_gradient (φ := id) (hdark i) (hasDerivAt_id _)
  choose G hG hGn using habs
  have hw : ∀ i, absFnGrad (overlapFnEval (Cs i) E) (w i) = some (w i * G i) := by
    intro i
    have hn : ‖overlapFnEval (Cs i) E‖ ≠ 0 := norm_ne_zero_iff.2 (hdark i)
    have h1 := hG i
    rw [absFnGrad, if_neg hn] at h1
    rw [absFnGrad, if_neg hn, ← Option.some.inj h1]
    congr 1; push_cast; ring
  set gt : VField sh.size := ((List.finRange k).map fun i => overlapFnGrad (Cs i) (w i * G i)).sum with hgt
  have hfold : ((List.finRange k).map fun i => (absFnGrad (overlapFnEval (Cs i) E) (w i)).map (overlapFnGrad (Cs i))).foldlM
      (fun acc (g : Option (VField sh.size)) => g.map (acc + ·)) 0 = some gt := by
    simp only [hw, Option.map_some]
    rw [foldlM_grads (fun i => overlapFnGrad (Cs i) (w i * G i)), zero_add]
  have hgtp : ∀ p, gt p = ∑ i, w i * G i * Cs i p := by
    intro p
    rw [hgt, ← List.ofFn_eq_map, List.sum_ofFn, Finset.sum_apply]
    rfl
  -- the derivative with respect to the field
  have hfield : FieldGrad (fun E => Φ fun i => ‖∑ p, Cs i p * E p‖) E gt := by
    obtain ⟨L, hL, hd⟩ := hΦ
    have hc := fun i => overlap_fn_gradient (hGn i)
    choose Li hLi hLd using hc
    have hpi : HasFDerivAt (fun (E : VField sh.size) i => ‖∑ p, Cs i p * E p‖) (ContinuousLinearMap.pi Li) E := by
      rw [hasFDerivAt_pi]
      exact fun i => hLd i
    refine ⟨L.comp (ContinuousLinearMap.pi Li), ?_, HasFDerivAt.comp (g := Φ) E hd hpi⟩
    intro v
    rw [ContinuousLinearMap.comp_apply, hL]
    simp only [ContinuousLinearMap.coe_pi', hLi, Finset.mul_sum]
    rw [Finset.sum_comm]
    refine Finset.sum_congr rfl fun p _ => ?_
    rw [hgtp, Finset.sum_mul, Complex.re_sum]
    refine Finset.sum_congr rfl fun i _ => ?_
    rw [overlapFnGrad, ← Complex.re_ofReal_mul]
    congr 1; ring
  obtain ⟨L, hL, hd⟩ := hfield
  obtain ⟨G0, hG0, L', hL', hd'⟩ := invdes_grad_exact h (epsilonEval bg S z) hA hu (fun E => Φ fun i => ‖∑ p, Cs i p * E p‖) gt L hL
    (fun o ho => by rw [hE] at ho; cases ho; exact hd)
  have hstruct := epsilon_gradient (F := fun e => Φ fun i => ‖∑ p, Cs i p * ((simFields c e).getD 0) p‖) ⟨L', hL', hd'⟩
  have hback : ∀ r, overlapsBackward c bg S r Cs z w = (invdesGrad c (epsilonEval bg S z) gt r).map (epsilonGrad S) := by
    intro r
    simp only [overlapsBackward, hE, Option.bind_some]
    rw [hfold, Option.bind_some]
  cases isReal with
  | false => exact ⟨_, by rw [hback, hG0, Option.map_some], hstruct⟩
  | true =>
    refine ⟨epsilonGrad S G0, ?_, hstruct⟩
    rw [hback]
    have hrr : invdesGrad c (epsilonEval bg S z) gt true = some fun p => (((G0 p).re : ℝ) : ℂ) := by
      unfold invdesGrad at hG0 ⊢
      rw [hE, Option.bind_some] at hG0 ⊢
      revert hG0
      cases c.solve (epsilonEval bg S z) (fun p => star (gt p) / (-Complex.I * c.omega)) true with
      | none => intro h; cases h
      | some d =>
        intro h
        simp only [Option.map_some, Option.some.injEq] at h ⊢
        rw [← h]
        rfl
    rw [hrr, Option.map_some]
    congr 1
    funext j
    have hS := (hr rfl).2
    simp only [epsilonGrad, vecMul, dotProduct, Complex.re_sum]
    refine Finset.sum_congr rfl fun p _ => ?_
    rw [Complex.mul_re, Complex.mul_re, hS]
    simp

/-! ### The hypotheses can be met -/

/-- A case that is not dark: for every simulation with a source, at a uniform permittivity, with the structure as the permittivity of
all cells and with the overlap vector of the field itself. -/
theorem lit_case {sh : Shape} {c : SimCfg sh} (h : GoodSim c) (hJ : c.J ≠ 0) : ∃ (s : ℝ) (E : VField sh.size),
    (∃ A, waveOp c (epsilonEval (m := 1) (fun _ => (s : ℂ)) (fun _ _ => 1) fun _ => 0) = some A ∧ IsUnit A.det) ∧
    simFields c (epsilonEval (m := 1) (fun _ => (s : ℂ)) (fun _ _ => 1) fun _ => 0) = some E ∧ overlapFnEval (star E) E ≠ 0 := by
  obtain ⟨K, hK, hsolve⟩ := sim_system h
  have hω : c.omega ^ 2 ≠ 0 := by
    refine pow_ne_zero 2 fun h0 => ?_
    have := omega_pos (c := c) h.wlen
    rw [h0] at this
    exact lt_irrefl _ this
  obtain ⟨s, hs⟩ : ∃ s : ℝ, K.charpoly.eval (c.omega ^ 2 * s) ≠ 0 := by
    classical
    by_contra hall
    push Not at hall
    have hinj : Function.Injective fun s : ℝ => c.omega ^ 2 * (s : ℂ) := fun a b hab =>
      Complex.ofReal_injective (mul_left_cancel₀ hω hab)
    obtain ⟨y, hy⟩ := (Set.infinite_range_of_injective hinj).exists_notMem_finset K.charpoly.roots.toFinset
    obtain ⟨⟨t, rfl⟩, hy2⟩ := hy
    apply hy2
    rw [Multiset.mem_toFinset, Polynomial.mem_roots K.charpoly_monic.ne_zero]
    exact hall t
  set bg : VField sh.size := fun _ => (s : ℂ) with hbg
  set S : Matrix (Fin 3 × Fin sh.size) (Fin 1) ℂ := fun _ _ => 1 with hS
  have he : epsilonEval bg S (fun _ => 0) = bg := by
    funext p; simp [epsilonEval, mulVec, dotProduct]
  have hdet : IsUnit (K - c.omega ^ 2 • Matrix.diagonal bg).det := by
    rw [isUnit_iff_ne_zero]
    rw [Matrix.eval_charpoly] at hs
    have : K - c.omega ^ 2 • Matrix.diagonal bg = -(Matrix.scalar _ (c.omega ^ 2 * (s : ℂ)) - K) := by
      rw [neg_sub]
      congr 1
      ext i j
      by_cases hij : i = j
      · subst hij; simp [hbg]
      · simp [hij, hbg]
    rw [this, Matrix.det_neg]
    exact mul_ne_zero (pow_ne_zero _ (by norm_num)) hs
  obtain ⟨E, hE, hEs⟩ := hsolve bg c.J false
  have hE0 : E ≠ 0 := by
    intro h0
    have hx := solves_unique hdet hEs
    have : (K - c.omega ^ 2 • Matrix.diagonal bg) *ᵥ E = (-Complex.I * c.omega) • c.J := by
      rw [hx, Matrix.mulVec_mulVec, Matrix.mul_nonsing_inv _ hdet, Matrix.one_mulVec]
    rw [h0, Matrix.mulVec_zero] at this
    refine hJ (smul_eq_zero.1 this.symm |>.resolve_left ?_)
    refine mul_ne_zero (neg_ne_zero.2 Complex.I_ne_zero) fun h1 => hω (by rw [h1]; simp)
  have hov : overlapFnEval (star E) E ≠ 0 := by
    rw [overlapFnEval]
    intro h0
    obtain ⟨p, hp⟩ := Function.ne_iff.1 hE0
    have hre := congrArg Complex.re h0
    simp only [dotProduct, Complex.re_sum, Complex.zero_re] at hre
    have h0' : ∀ p ∈ (Finset.univ : Finset (Fin 3 × Fin sh.size)), 0 ≤ ((star E) p * E p).re := by
      intro p _
      rw [Pi.star_apply, show star (E p) * E p = ((Complex.normSq (E p) : ℝ) : ℂ) from Complex.normSq_eq_conj_mul_self.symm]
      exact Complex.normSq_nonneg _
    have := (Finset.sum_eq_zero_iff_of_nonneg h0').1 hre p (Finset.mem_univ p)
    rw [Pi.star_apply, show star (E p) * E p = ((Complex.normSq (E p) : ℝ) : ℂ) from Complex.normSq_eq_conj_mul_self.symm,
      Complex.ofReal_re, Complex.normSq_eq_zero] at this
    exact hp this
  have hsf : simFields c (epsilonEval bg S fun _ => 0) = some E := by rw [he]; exact hE
  exact ⟨s, E, ⟨_, by rw [he]; exact hK bg, hdet⟩, hsf, hov⟩

/-- The hypotheses of `overlaps_gradient` are met for every simulation with a source, at a uniform permittivity, with the structure
as the permittivity of all cells and with the overlap vector of the field itself; the objective is the square of the overlap. -/
example {sh : Shape} {c : SimCfg sh} (h : GoodSim c) (hJ : c.J ≠ 0) :
    ∃ (bg : VField sh.size) (S : Matrix (Fin 3 × Fin sh.size) (Fin 1) ℂ) (C : VField sh.size) (g : Fin 1 → ℝ),
      overlapsBackward c bg S true (fun _ : Fin 1 => C) (fun _ => 0)
        (fun _ => 2 * ‖∑ p, C p * ((simFields c (epsilonEval bg S fun _ => 0)).getD 0) p‖) = some g ∧
      StructGrad (fun z => ‖∑ p, C p * ((simFields c (epsilonEval bg S z)).getD 0) p‖ ^ 2) (fun _ => 0) g := by
  obtain ⟨s, E, ⟨A, hA, hdet⟩, hsf, hov⟩ := lit_case h hJ
  set bg : VField sh.size := fun _ => (s : ℂ) with hbg
  set S : Matrix (Fin 3 × Fin sh.size) (Fin 1) ℂ := fun _ _ => 1 with hS
  obtain ⟨g, hg1, hg2⟩ := overlaps_gradient (k := 1) h bg S true (fun _ => ⟨fun _ => Complex.ofReal_im s, fun _ _ => Complex.one_im⟩)
    (fun _ => star E) (fun _ => 0) hA hdet E hsf (fun _ => hov) (fun v => v 0 ^ 2)
    (fun i => 2 * ‖∑ p, (star E) p * E p‖) ⟨(2 * ‖∑ p, (star E) p * E p‖) • ContinuousLinearMap.proj (R := ℝ) (φ := fun _ => ℝ) 0, by
      intro v; simp, by
      have h1 : HasFDerivAt (fun v : Fin 1 → ℝ => v 0) (ContinuousLinearMap.proj (R := ℝ) (φ := fun _ => ℝ) 0)
        (fun _ => ‖∑ p, (star E) p * E p‖) :=
        ContinuousLinearMap.hasFDerivAt (ContinuousLinearMap.proj (R := ℝ) (φ := fun _ : Fin 1 => ℝ) 0)
      have := h1.pow 2
      simpa using this⟩
  refine ⟨bg, S, star E, g, ?_, hg2⟩
  rw [hsf]
  exact hg1

/-! ### What does not hold -/

/-- C105 fails for a reference that is made from the parametrization that is optimised: its change is not part of the gradient. -/
theorem diff_epsilon_moving_false : ¬ ∀ (n m : Nat) (bg bg' : VField n) (S S' : Matrix (Fin 3 × Fin n) (Fin m) ℂ) (z : Fin m → ℝ),
    StructGrad (fun z => diffEpsilonEval (epsilonEval bg' S' z) (epsilonEval bg S z)) z
      (epsilonGrad S (diffEpsilonGrad (epsilonEval bg' S' z) (epsilonEval bg S z) 1)) := by
  intro hall
  obtain ⟨L, hL, hd⟩ := hall 1 1 0 0 (fun p _ => if p = 0 then 1 else 0) (fun p _ => if p = 0 then 2 else 0) (fun _ => 1)
  have hval : (fun z : Fin 1 → ℝ => diffEpsilonEval (n := 1) (epsilonEval 0 (fun p _ => if p = 0 then 2 else 0) z)
      (epsilonEval 0 (fun p _ => if p = 0 then 1 else 0) z)) = fun z => z 0 ^ 2 := by
    funext z
    simp only [diffEpsilonEval, epsilonEval, Fintype.sum_prod_type, Fin.sum_univ_three, Finset.univ_unique, Finset.sum_singleton,
      Fin.default_eq_zero, zero_add, mulVec, dotProduct]
    simp
    rw [show ((z 0 : ℂ) - 2 * z 0) = ((-(z 0) : ℝ) : ℂ) by push_cast; ring, Complex.norm_real, Real.norm_eq_abs, sq_abs]
    ring
  rw [hval] at hd
  have h1 : HasFDerivAt (fun v : Fin 1 → ℝ => v 0) (ContinuousLinearMap.proj (R := ℝ) (φ := fun _ => ℝ) 0) (fun _ => 1) :=
    ContinuousLinearMap.hasFDerivAt (ContinuousLinearMap.proj (R := ℝ) (φ := fun _ : Fin 1 => ℝ) 0)
  have h2 := h1.pow 2
  have h3 := congrArg (fun L : (Fin 1 → ℝ) →L[ℝ] ℝ => L fun _ => 1) (hd.unique h2)
  simp only [hL] at h3
  simp [epsilonGrad, diffEpsilonGrad, epsilonEval, vecMul, mulVec, dotProduct] at h3

/-- C105: the plan describes the difference as the sum of absolute values; the sum of squares is returned. -/
theorem diff_epsilon_l1_false : ¬ ∀ (n : Nat) (ref eps : VField n), diffEpsilonEval ref eps = ∑ p, ‖eps p - ref p‖ := by
  intro hall
  have := hall 1 0 (fun _ => 2)
  simp [diffEpsilonEval] at this
  norm_num at this

end Verif.Fdfd
