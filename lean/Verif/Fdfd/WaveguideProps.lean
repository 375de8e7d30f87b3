import Verif.Fdfd.WaveguideLemmas
import Mathlib.Tactic.FieldSimp
import Mathlib.Tactic.LinearCombination
/-
Properties C72 (waveguide modes solve Maxwell's equations) and C73 (normalisation of the modes).
-/
set_option linter.unusedSimpArgs false
namespace Verif.Fdfd
open Matrix
variable {n0 n1 : Nat}

/-! ### Specification -/

/-- Forward and backward differences along the two axes of the cross-section, periodically. -/
noncomputable def dFwd0 (d : Dxes2) (f : Arr2 n0 n1) : Arr2 n0 n1 := fun i j => (f (nextIx i) j - f i j) / d.e 0 i
noncomputable def dFwd1 (d : Dxes2) (f : Arr2 n0 n1) : Arr2 n0 n1 := fun i j => (f i (nextIx j) - f i j) / d.e 1 j
noncomputable def dBack0 (d : Dxes2) (f : Arr2 n0 n1) : Arr2 n0 n1 := fun i j => (f i j - f (prevIx i) j) / d.h 0 i
noncomputable def dBack1 (d : Dxes2) (f : Arr2 n0 n1) : Arr2 n0 n1 := fun i j => (f i j - f i (prevIx j)) / d.h 1 j

/-- The fields `E exp(-i β z)` and `H exp(-i β z)` solve Maxwell's equations without sources: the derivative along `z` is the
multiplication by `-i β`. -/
structure IsMode (d : Dxes2) (ω β : ℂ) (ε μ E H : Fin 3 → Arr2 n0 n1) : Prop where
  ex : ∀ i j, dFwd1 d (E 2) i j - (-Complex.I * β) * E 1 i j = -Complex.I * ω * μ 0 i j * H 0 i j
  ey : ∀ i j, (-Complex.I * β) * E 0 i j - dFwd0 d (E 2) i j = -Complex.I * ω * μ 1 i j * H 1 i j
  ez : ∀ i j, dFwd0 d (E 1) i j - dFwd1 d (E 0) i j = -Complex.I * ω * μ 2 i j * H 2 i j
  hx : ∀ i j, dBack1 d (H 2) i j - (-Complex.I * β) * H 1 i j = Complex.I * ω * ε 0 i j * E 0 i j
  hy : ∀ i j, (-Complex.I * β) * H 0 i j - dBack0 d (H 2) i j = Complex.I * ω * ε 1 i j * E 1 i j
  hz : ∀ i j, dBack0 d (H 1) i j - dBack1 d (H 0) i j = Complex.I * ω * ε 2 i j * E 2 i j

/-- All data are real: cell sizes, the square of the frequency, permittivity and permeability. -/
def RealData (n0 n1 : Nat) (d : Dxes2) (ω : ℂ) (eps mu : VField (numel (Sec n0 n1))) : Prop :=
  (∀ i : Fin n0, star (d.e 0 i) = d.e 0 i ∧ star (d.h 0 i) = d.h 0 i) ∧
  (∀ j : Fin n1, star (d.e 1 j) = d.e 1 j ∧ star (d.h 1 j) = d.h 1 j) ∧
  star (ω ^ 2) = ω ^ 2 ∧ (∀ p, star (eps p) = eps p) ∧ (∀ p, star (mu p) = mu p)

/-! ### Lemmas -/

section
variable {n : Nat}

/-- The two curl equations, on vectors. -/
def WgMaxwell (D : Derivs n) (ω β : ℂ) (eps mu e h : VField n) : Prop :=
  (∀ p, (wgCurlE D β *ᵥ e) p = -Complex.I * ω * mu p * h p) ∧
  (∀ p, (wgCurlH D β *ᵥ h) p = Complex.I * ω * eps p * e p)

theorem vec3_forall {P : Fin 3 → Prop} : (∀ a, P a) ↔ P 0 ∧ P 1 ∧ P 2 :=
  ⟨fun h => ⟨h 0, h 1, h 2⟩, fun h a => match a with | 0 => h.1 | 1 => h.2.1 | 2 => h.2.2⟩

theorem scal_apply (β : ℂ) (f : Fin n → ℂ) (i : Fin n) :
    (((-Complex.I * β) • (1 : Mat n)) *ᵥ f) i = (-Complex.I * β) * f i := by
  rw [Matrix.smul_mulVec, Matrix.one_mulVec]; rfl

theorem wgCurlE_apply (D : Derivs n) (β : ℂ) (e : VField n) (i : Fin n) :
    (wgCurlE D β *ᵥ e) (0, i) = (D.fy *ᵥ comp e 2) i - (-Complex.I * β) * e (1, i) ∧
    (wgCurlE D β *ᵥ e) (1, i) = (-Complex.I * β) * e (0, i) - (D.fx *ᵥ comp e 2) i ∧
    (wgCurlE D β *ᵥ e) (2, i) = (D.fx *ᵥ comp e 1) i - (D.fy *ᵥ comp e 0) i := by
  obtain ⟨h0, h1, h2⟩ := cross_comp ![D.fx, D.fy, (-Complex.I * β) • (1 : Mat n)] e
  refine ⟨?_, ?_, ?_⟩
  · have := congrFun h0 i
    refine this.trans ?_
    exact congrArg ((D.fy *ᵥ comp e 2) i - ·) (scal_apply β (comp e 1) i)
  · have := congrFun h1 i
    refine this.trans ?_
    exact congrArg (· - (D.fx *ᵥ comp e 2) i) (scal_apply β (comp e 0) i)
  · exact congrFun h2 i

theorem wgCurlH_apply (D : Derivs n) (β : ℂ) (e : VField n) (i : Fin n) :
    (wgCurlH D β *ᵥ e) (0, i) = (D.bY *ᵥ comp e 2) i - (-Complex.I * β) * e (1, i) ∧
    (wgCurlH D β *ᵥ e) (1, i) = (-Complex.I * β) * e (0, i) - (D.bx *ᵥ comp e 2) i ∧
    (wgCurlH D β *ᵥ e) (2, i) = (D.bx *ᵥ comp e 1) i - (D.bY *ᵥ comp e 0) i := by
  obtain ⟨h0, h1, h2⟩ := cross_comp ![D.bx, D.bY, (-Complex.I * β) • (1 : Mat n)] e
  refine ⟨?_, ?_, ?_⟩
  · have := congrFun h0 i
    refine this.trans ?_
    exact congrArg ((D.bY *ᵥ comp e 2) i - ·) (scal_apply β (comp e 1) i)
  · have := congrFun h1 i
    refine this.trans ?_
    exact congrArg (· - (D.bx *ᵥ comp e 2) i) (scal_apply β (comp e 0) i)
  · exact congrFun h2 i

theorem v2h_apply (D : Derivs n) (v : VField2 n) (β : ℂ) (mu : Option (VField n)) (i : Fin n) :
    v2h D v β mu (0, i) = v (0, i) ∧ v2h D v β mu (1, i) = v (1, i) ∧
    v2h D v β mu (2, i) = wgG D (muOf mu) v i / (Complex.I * β) := by
  refine ⟨rfl, rfl, ?_⟩
  cases mu with
  | none =>
    simp only [v2h, wgG, muOf, Option.getD_none, Pi.one_apply, one_mul, div_one]
    have := hstack_mulVec D.fx D.fy v i
    simp only [Matrix.cons_val]
    rw [this]
    rfl
  | some m =>
    simp only [v2h, wgG, muOf, Option.getD_some, ← Matrix.mulVec_mulVec, Matrix.mulVec_diagonal, Matrix.cons_val]
    rw [hstack_mulVec]
    have h0 : comp2 ((Matrix.diagonal fun p : Fin 2 × Fin n => ![m (0, p.2), m (1, p.2)] p.1) *ᵥ v) 0 =
        fun i => m (0, i) * v (0, i) := by
      funext i; rw [comp2, Matrix.mulVec_diagonal]; rfl
    have h1 : comp2 ((Matrix.diagonal fun p : Fin 2 × Fin n => ![m (0, p.2), m (1, p.2)] p.1) *ᵥ v) 1 =
        fun i => m (1, i) * v (1, i) := by
      funext i; rw [comp2, Matrix.mulVec_diagonal]; rfl
    rw [h0, h1]

theorem mulVec_smul_fn (A : Mat n) (a : ℂ) (f : Fin n → ℂ) (i : Fin n) :
    (A *ᵥ fun i => a * f i) i = a * (A *ᵥ f) i := by
  have : (fun i => a * f i) = a • f := rfl
  rw [this, Matrix.mulVec_smul]; rfl

theorem mulVec_div_fn (A : Mat n) (a : ℂ) (f : Fin n → ℂ) (i : Fin n) :
    (A *ᵥ fun i => f i / a) i = (A *ᵥ f) i / a := by
  simp only [div_eq_inv_mul]
  exact mulVec_smul_fn A a⁻¹ f i

theorem v2e_maxwell (D : Derivs n) (v : VField2 n) (ω β : ℂ) (hω : ω ≠ 0) (eps : VField n) (hε : ∀ p, eps p ≠ 0)
    (mu : Option (VField n)) (p : Fin 3 × Fin n) :
    (wgCurlH D β *ᵥ v2h D v β mu) p = Complex.I * ω * eps p * v2e D v β ω eps mu p := by
  rw [v2e, wgH2e, ← Matrix.mulVec_mulVec, Matrix.mulVec_diagonal]
  have := Complex.I_ne_zero
  have := hε p
  field_simp

/-- The algebra behind the eigenvalue equation. -/
theorem eigen_iff (D : Derivs n) (hcomm : ∀ f, D.fx *ᵥ (D.fy *ᵥ f) = D.fy *ᵥ (D.fx *ᵥ f)) (v : VField2 n) (ω β : ℂ)
    (hω : ω ≠ 0) (hβ : β ≠ 0) (eps : VField n) (hε : ∀ p, eps p ≠ 0) (mu : Option (VField n))
    (hμ : ∀ p, muOf mu p ≠ 0) :
    (wgFull D ω eps mu *ᵥ v = fun p => β ^ 2 * v p) ↔
      WgMaxwell D ω β eps (muOf mu) (v2e D v β ω eps mu) (v2h D v β mu) := by
  have hI := Complex.I_ne_zero
  have hII : Complex.I * Complex.I = -1 := Complex.I_mul_I
  set e := v2e D v β ω eps mu with he
  set h := v2h D v β mu with hh
  have hcH : ∀ p, (wgCurlH D β *ᵥ h) p = Complex.I * ω * eps p * e p := v2e_maxwell D v ω β hω eps hε mu
  have h0 : ∀ i, h (0, i) = v (0, i) := fun i => (v2h_apply D v β mu i).1
  have h1 : ∀ i, h (1, i) = v (1, i) := fun i => (v2h_apply D v β mu i).2.1
  have h2 : ∀ i, h (2, i) = wgG D (muOf mu) v i / (Complex.I * β) := fun i => (v2h_apply D v β mu i).2.2
  have c2 : comp h 2 = fun i => wgG D (muOf mu) v i / (Complex.I * β) := funext h2
  have c0 : comp h 0 = comp2 v 0 := funext h0
  have c1 : comp h 1 = comp2 v 1 := funext h1
  -- the components of `e`
  have e0 : ∀ i, Complex.I * ω * eps (0, i) * e (0, i) =
      (D.bY *ᵥ wgG D (muOf mu) v) i / (Complex.I * β) - (-Complex.I * β) * v (1, i) := by
    intro i
    rw [← hcH, (wgCurlH_apply D β h i).1, c2, mulVec_div_fn, h1]
  have e1 : ∀ i, Complex.I * ω * eps (1, i) * e (1, i) =
      (-Complex.I * β) * v (0, i) - (D.bx *ᵥ wgG D (muOf mu) v) i / (Complex.I * β) := by
    intro i
    rw [← hcH, (wgCurlH_apply D β h i).2.1, c2, mulVec_div_fn, h0]
  have e2 : ∀ i, e (2, i) = wgK D eps v i / (Complex.I * ω) := by
    intro i
    have := hcH (2, i)
    rw [(wgCurlH_apply D β h i).2.2, c0, c1] at this
    have hz := hε (2, i)
    rw [wgK, eq_div_iff (mul_ne_zero hI hω)]
    field_simp
    linear_combination -this
  have ce2 : comp e 2 = fun i => wgK D eps v i / (Complex.I * ω) := funext e2
  have x0 : ∀ i, (wgCurlE D β *ᵥ e) (0, i) =
      (D.fy *ᵥ wgK D eps v) i / (Complex.I * ω) - (-Complex.I * β) * e (1, i) := by
    intro i
    rw [(wgCurlE_apply D β e i).1, ce2, mulVec_div_fn]
  have x1 : ∀ i, (wgCurlE D β *ᵥ e) (1, i) =
      (-Complex.I * β) * e (0, i) - (D.fx *ᵥ wgK D eps v) i / (Complex.I * ω) := by
    intro i
    rw [(wgCurlE_apply D β e i).2.1, ce2, mulVec_div_fn]
  -- the two transverse equations are the eigenvalue equation
  have q0 : ∀ i, (wgFull D ω eps mu *ᵥ v) (0, i) = β ^ 2 * v (0, i) ↔
      (wgCurlE D β *ᵥ e) (0, i) = -Complex.I * ω * muOf mu (0, i) * h (0, i) := by
    intro i
    rw [(wgFull_mulVec D ω eps mu v i).1, x0, h0]
    have hz := hε (1, i)
    have key : Complex.I * ω * eps (1, i) * ((D.fy *ᵥ wgK D eps v) i / (Complex.I * ω) - (-Complex.I * β) * e (1, i)) =
        eps (1, i) * (D.fy *ᵥ wgK D eps v) i + β ^ 2 * v (0, i) - (D.bx *ᵥ wgG D (muOf mu) v) i := by
      have : Complex.I * ω * eps (1, i) * ((D.fy *ᵥ wgK D eps v) i / (Complex.I * ω) - (-Complex.I * β) * e (1, i)) =
          eps (1, i) * (D.fy *ᵥ wgK D eps v) i + Complex.I * β * (Complex.I * ω * eps (1, i) * e (1, i)) := by
        field_simp
        try ring
      rw [this, e1]
      have : Complex.I * β * ((-Complex.I * β) * v (0, i) - (D.bx *ᵥ wgG D (muOf mu) v) i / (Complex.I * β)) =
          -(Complex.I * Complex.I) * β ^ 2 * v (0, i) - (D.bx *ᵥ wgG D (muOf mu) v) i := by
        field_simp
      rw [this, hII]
      ring
    constructor
    · intro hq
      apply mul_left_cancel₀ (mul_ne_zero (mul_ne_zero hI hω) hz)
      rw [key]
      linear_combination -hq + ω ^ 2 * eps (1, i) * muOf mu (0, i) * v (0, i) * hII
    · intro hq
      rw [hq] at key
      linear_combination key + ω ^ 2 * eps (1, i) * muOf mu (0, i) * v (0, i) * hII
  have q1 : ∀ i, (wgFull D ω eps mu *ᵥ v) (1, i) = β ^ 2 * v (1, i) ↔
      (wgCurlE D β *ᵥ e) (1, i) = -Complex.I * ω * muOf mu (1, i) * h (1, i) := by
    intro i
    rw [(wgFull_mulVec D ω eps mu v i).2, x1, h1]
    have hz := hε (0, i)
    have key : Complex.I * ω * eps (0, i) * ((-Complex.I * β) * e (0, i) - (D.fx *ᵥ wgK D eps v) i / (Complex.I * ω)) =
        -(eps (0, i) * (D.fx *ᵥ wgK D eps v) i) + β ^ 2 * v (1, i) - (D.bY *ᵥ wgG D (muOf mu) v) i := by
      have : Complex.I * ω * eps (0, i) * ((-Complex.I * β) * e (0, i) - (D.fx *ᵥ wgK D eps v) i / (Complex.I * ω)) =
          -(eps (0, i) * (D.fx *ᵥ wgK D eps v) i) - Complex.I * β * (Complex.I * ω * eps (0, i) * e (0, i)) := by
        field_simp
        try ring
      rw [this, e0]
      have : Complex.I * β * ((D.bY *ᵥ wgG D (muOf mu) v) i / (Complex.I * β) - (-Complex.I * β) * v (1, i)) =
          (D.bY *ᵥ wgG D (muOf mu) v) i + (Complex.I * Complex.I) * β ^ 2 * v (1, i) := by
        field_simp
        try ring
      rw [this, hII]
      ring
    constructor
    · intro hq
      apply mul_left_cancel₀ (mul_ne_zero (mul_ne_zero hI hω) hz)
      rw [key]
      linear_combination -hq + ω ^ 2 * eps (0, i) * muOf mu (1, i) * v (1, i) * hII
    · intro hq
      rw [hq] at key
      linear_combination key + ω ^ 2 * eps (0, i) * muOf mu (1, i) * v (1, i) * hII
  constructor
  · intro hv
    refine ⟨fun p => ?_, hcH⟩
    have a0 : ∀ i, (wgCurlE D β *ᵥ e) (0, i) = -Complex.I * ω * muOf mu (0, i) * h (0, i) :=
      fun i => (q0 i).1 (congrFun hv (0, i))
    have a1 : ∀ i, (wgCurlE D β *ᵥ e) (1, i) = -Complex.I * ω * muOf mu (1, i) * h (1, i) :=
      fun i => (q1 i).1 (congrFun hv (1, i))
    obtain ⟨a, i⟩ := p
    revert a i
    rw [vec3_forall]
    refine ⟨a0, a1, fun i => ?_⟩
    -- the divergence of the curl
    have f0 : comp (wgCurlE D β *ᵥ e) 0 = fun i => (-Complex.I * ω) * (muOf mu (0, i) * v (0, i)) := by
      funext i; rw [comp, a0, h0]; ring
    have f1 : comp (wgCurlE D β *ᵥ e) 1 = fun i => (-Complex.I * ω) * (muOf mu (1, i) * v (1, i)) := by
      funext i; rw [comp, a1, h1]; ring
    have g0 : comp (wgCurlE D β *ᵥ e) 0 = D.fy *ᵥ comp e 2 + (Complex.I * β) • comp e 1 := by
      funext i; rw [comp, (wgCurlE_apply D β e i).1]
      simp only [Pi.add_apply, Pi.smul_apply, smul_eq_mul, comp]; ring
    have g1 : comp (wgCurlE D β *ᵥ e) 1 = -(D.fx *ᵥ comp e 2) - (Complex.I * β) • comp e 0 := by
      funext i; rw [comp, (wgCurlE_apply D β e i).2.1]
      simp only [Pi.sub_apply, Pi.neg_apply, Pi.smul_apply, smul_eq_mul, comp]; ring
    have hsum : (D.fx *ᵥ comp (wgCurlE D β *ᵥ e) 0) i + (D.fy *ᵥ comp (wgCurlE D β *ᵥ e) 1) i =
        Complex.I * β * (wgCurlE D β *ᵥ e) (2, i) := by
      rw [g0, g1, (wgCurlE_apply D β e i).2.2, Matrix.mulVec_add, Matrix.mulVec_sub, Matrix.mulVec_neg,
        Matrix.mulVec_smul, Matrix.mulVec_smul, hcomm]
      simp only [Pi.add_apply, Pi.sub_apply, Pi.neg_apply, Pi.smul_apply, smul_eq_mul]
      ring
    have hsum' : (D.fx *ᵥ comp (wgCurlE D β *ᵥ e) 0) i + (D.fy *ᵥ comp (wgCurlE D β *ᵥ e) 1) i =
        -Complex.I * ω * (muOf mu (2, i) * wgG D (muOf mu) v i) := by
      rw [f0, f1, mulVec_smul_fn, mulVec_smul_fn, wgG]
      have := hμ (2, i)
      field_simp
      ring
    apply mul_left_cancel₀ (mul_ne_zero hI hβ)
    rw [← hsum, hsum', h2]
    field_simp
  · rintro ⟨hE, -⟩
    funext p
    obtain ⟨a, i⟩ := p
    match a with
    | 0 => exact (q0 i).2 (hE (0, i))
    | 1 => exact (q1 i).2 (hE (1, i))

/-- Every solution of the two curl equations comes from its transverse magnetic field. -/
theorem maxwell_from_v (D : Derivs n) (hcomm : ∀ f, D.fx *ᵥ (D.fy *ᵥ f) = D.fy *ᵥ (D.fx *ᵥ f)) (ω β : ℂ)
    (hω : ω ≠ 0) (hβ : β ≠ 0) (eps : VField n) (hε : ∀ p, eps p ≠ 0) (mu : Option (VField n))
    (hμ : ∀ p, muOf mu p ≠ 0) (e h : VField n) (hM : WgMaxwell D ω β eps (muOf mu) e h) :
    h = v2h D (fun p => ![h (0, p.2), h (1, p.2)] p.1) β mu ∧
    e = v2e D (fun p => ![h (0, p.2), h (1, p.2)] p.1) β ω eps mu := by
  have hI := Complex.I_ne_zero
  set v : VField2 n := fun p => ![h (0, p.2), h (1, p.2)] p.1 with hv
  have hh : h = v2h D v β mu := by
    funext p
    obtain ⟨a, i⟩ := p
    revert a i
    rw [vec3_forall]
    refine ⟨fun i => (v2h_apply D v β mu i).1.symm, fun i => (v2h_apply D v β mu i).2.1.symm, fun i => ?_⟩
    rw [(v2h_apply D v β mu i).2.2]
    have f0 : comp (wgCurlE D β *ᵥ e) 0 = fun i => (-Complex.I * ω) * (muOf mu (0, i) * v (0, i)) := by
      funext i; rw [comp, hM.1]
      have : v (0, i) = h (0, i) := rfl
      rw [this]; ring
    have f1 : comp (wgCurlE D β *ᵥ e) 1 = fun i => (-Complex.I * ω) * (muOf mu (1, i) * v (1, i)) := by
      funext i; rw [comp, hM.1]
      have : v (1, i) = h (1, i) := rfl
      rw [this]; ring
    have g0 : comp (wgCurlE D β *ᵥ e) 0 = D.fy *ᵥ comp e 2 + (Complex.I * β) • comp e 1 := by
      funext i; rw [comp, (wgCurlE_apply D β e i).1]
      simp only [Pi.add_apply, Pi.smul_apply, smul_eq_mul, comp]; ring
    have g1 : comp (wgCurlE D β *ᵥ e) 1 = -(D.fx *ᵥ comp e 2) - (Complex.I * β) • comp e 0 := by
      funext i; rw [comp, (wgCurlE_apply D β e i).2.1]
      simp only [Pi.sub_apply, Pi.neg_apply, Pi.smul_apply, smul_eq_mul, comp]; ring
    have hsum : (D.fx *ᵥ comp (wgCurlE D β *ᵥ e) 0) i + (D.fy *ᵥ comp (wgCurlE D β *ᵥ e) 1) i =
        Complex.I * β * (wgCurlE D β *ᵥ e) (2, i) := by
      rw [g0, g1, (wgCurlE_apply D β e i).2.2, Matrix.mulVec_add, Matrix.mulVec_sub, Matrix.mulVec_neg,
        Matrix.mulVec_smul, Matrix.mulVec_smul, hcomm]
      simp only [Pi.add_apply, Pi.sub_apply, Pi.neg_apply, Pi.smul_apply, smul_eq_mul]
      ring
    have hsum' : (D.fx *ᵥ comp (wgCurlE D β *ᵥ e) 0) i + (D.fy *ᵥ comp (wgCurlE D β *ᵥ e) 1) i =
        -Complex.I * ω * (muOf mu (2, i) * wgG D (muOf mu) v i) := by
      rw [f0, f1, mulVec_smul_fn, mulVec_smul_fn, wgG]
      have := hμ (2, i)
      field_simp
      ring
    rw [hsum', hM.1] at hsum
    have hm := hμ (2, i)
    rw [eq_div_iff (mul_ne_zero hI hβ)]
    apply mul_left_cancel₀ (mul_ne_zero (mul_ne_zero hI hω) hm)
    linear_combination hsum
  refine ⟨hh, ?_⟩
  funext p
  have h1 := v2e_maxwell D v ω β hω eps hε mu p
  rw [← hh, hM.2 p] at h1
  exact mul_left_cancel₀ (mul_ne_zero (mul_ne_zero hI hω) (hε p)) h1

end

theorem derivs_comm {d : Dxes2} {D : Derivs (numel (Sec n0 n1))} (hD : derivs n0 n1 d = some D) (f) :
    D.fx *ᵥ (D.fy *ᵥ f) = D.fy *ᵥ (D.fx *ᵥ f) := by
  obtain ⟨D', h', fx, fy, -⟩ := derivs_spec (n0 := n0) (n1 := n1) d
  rw [hD] at h'
  cases h'
  funext p
  obtain ⟨i, j, rfl⟩ := pos2_surj p
  rw [fx, fy, fy, fy, fx, fx]
  ring

theorem maxwell_iff_mode {d : Dxes2} {D : Derivs (numel (Sec n0 n1))} (hD : derivs n0 n1 d = some D) (ω β : ℂ)
    (eps mu e h : VField (numel (Sec n0 n1))) :
    WgMaxwell D ω β eps mu e h ↔ IsMode (n0 := n0) (n1 := n1) d ω β (unvec2 eps) (unvec2 mu) (unvec2 e) (unvec2 h) := by
  obtain ⟨D', h', fx, fy, bx, bY, -⟩ := derivs_spec (n0 := n0) (n1 := n1) d
  rw [hD] at h'
  cases h'
  have hcE := wgCurlE_apply D β e
  have hcH := wgCurlH_apply D β h
  constructor
  · rintro ⟨hE, hH⟩
    constructor <;> intro i j <;> simp only [dFwd0, dFwd1, dBack0, dBack1, unvec2_eq]
    · rw [← hE, (hcE _).1, fy]; rfl
    · rw [← hE, (hcE _).2.1, fx]; rfl
    · rw [← hE, (hcE _).2.2, fx, fy]; rfl
    · rw [← hH, (hcH _).1, bY]; rfl
    · rw [← hH, (hcH _).2.1, bx]; rfl
    · rw [← hH, (hcH _).2.2, bx, bY]; rfl
  · intro hM
    constructor
    · rintro ⟨a, p⟩
      obtain ⟨i, j, rfl⟩ := pos2_surj p
      revert a
      rw [vec3_forall]
      refine ⟨?_, ?_, ?_⟩
      · have := hM.ex i j
        simp only [dFwd0, dFwd1, unvec2_eq] at this
        rw [(hcE _).1, fy, ← this]; rfl
      · have := hM.ey i j
        simp only [dFwd0, dFwd1, unvec2_eq] at this
        rw [(hcE _).2.1, fx, ← this]; rfl
      · have := hM.ez i j
        simp only [dFwd0, dFwd1, unvec2_eq] at this
        rw [(hcE _).2.2, fx, fy, ← this]; rfl
    · rintro ⟨a, p⟩
      obtain ⟨i, j, rfl⟩ := pos2_surj p
      revert a
      rw [vec3_forall]
      refine ⟨?_, ?_, ?_⟩
      · have := hM.hx i j
        simp only [dBack0, dBack1, unvec2_eq] at this
        rw [(hcH _).1, bY, ← this]; rfl
      · have := hM.hy i j
        simp only [dBack0, dBack1, unvec2_eq] at this
        rw [(hcH _).2.1, bx, ← this]; rfl
      · have := hM.hz i j
        simp only [dBack0, dBack1, unvec2_eq] at this
        rw [(hcH _).2.2, bx, bY, ← this]; rfl

theorem map_star_vstack {n : Nat} (A B : Mat n) : (vstack A B).map star = vstack (A.map star) (B.map star) := by
  ext p j
  obtain ⟨a, i⟩ := p
  match a with
  | 0 => rfl
  | 1 => rfl

theorem map_star_hstack {n : Nat} (A B : Mat n) : (hstack A B).map star = hstack (A.map star) (B.map star) := by
  ext i q
  obtain ⟨a, j⟩ := q
  match a with
  | 0 => rfl
  | 1 => rfl

/-- For real data the cast to real numbers changes nothing. -/
theorem operator_real {d : Dxes2} {D : Derivs (numel (Sec n0 n1))} (hD : derivs n0 n1 d = some D) (ω : ℂ)
    (eps : VField (numel (Sec n0 n1))) (mu : Option (VField (numel (Sec n0 n1))))
    (hr : RealData n0 n1 d ω eps (muOf mu)) : wgOperator D ω eps mu = wgFull D ω eps mu := by
  obtain ⟨D', h', -, -, -, -, hre⟩ := derivs_spec (n0 := n0) (n1 := n1) d
  rw [hD] at h'
  cases h'
  obtain ⟨r0, r1, rω, rε, rμ⟩ := hr
  obtain ⟨rfx, rfy, rbx, rbY⟩ := hre r0 r1
  have hneg : ∀ A : Mat (numel (Sec n0 n1)), A.map star = A → (-A).map star = -A := by
    intro A hA
    ext i j
    have := congrFun (congrFun hA i) j
    rw [Matrix.map_apply] at this
    rw [Matrix.map_apply, Matrix.neg_apply, star_neg, this]
  have hstar : (wgFull D ω eps mu).map star = wgFull D ω eps mu := by
    unfold wgFull
    rw [Matrix.map_add _ (fun a b => star_add a b), Matrix.map_add _ (fun a b => star_add a b)]
    simp only [wg_map_star_mul, map_star_vstack, map_star_hstack, rfx, rfy, rbx, rbY, hneg _ rfy, hneg _ rbY]
    have hs : ∀ (A : Matrix (Fin 2 × Fin (numel (Sec n0 n1))) (Fin 2 × Fin (numel (Sec n0 n1))) ℂ), A.map star = A →
        (ω ^ 2 • A).map star = ω ^ 2 • A := by
      intro A hA
      ext i j
      have := congrFun (congrFun hA i) j
      rw [Matrix.map_apply] at this
      rw [Matrix.map_apply, Matrix.smul_apply, smul_eq_mul, star_mul', rω, this]
    have d1 : (Matrix.diagonal fun p : Fin 2 × Fin (numel (Sec n0 n1)) => ![eps (1, p.2), eps (0, p.2)] p.1).map star =
        Matrix.diagonal fun p : Fin 2 × Fin (numel (Sec n0 n1)) => ![eps (1, p.2), eps (0, p.2)] p.1 := by
      rw [Matrix.diagonal_map (star_zero _)]
      congr 1
      funext p
      obtain ⟨a, i⟩ := p
      match a with
      | 0 => exact rε _
      | 1 => exact rε _
    have d2 : (Matrix.diagonal fun p : Fin 2 × Fin (numel (Sec n0 n1)) => ![muOf mu (0, p.2), muOf mu (1, p.2)] p.1).map
        star = Matrix.diagonal fun p : Fin 2 × Fin (numel (Sec n0 n1)) => ![muOf mu (0, p.2), muOf mu (1, p.2)] p.1 := by
      rw [Matrix.diagonal_map (star_zero _)]
      congr 1
      funext p
      obtain ⟨a, i⟩ := p
      match a with
      | 0 => exact rμ _
      | 1 => exact rμ _
    have d3 : (Matrix.diagonal fun i => 1 / eps (2, i)).map star = Matrix.diagonal fun i => 1 / eps (2, i) := by
      rw [Matrix.diagonal_map (star_zero _)]
      congr 1
      funext i
      simp only [one_div, star_inv₀, rε]
    have d4 : (Matrix.diagonal fun i => 1 / muOf mu (2, i)).map star = Matrix.diagonal fun i => 1 / muOf mu (2, i) := by
      rw [Matrix.diagonal_map (star_zero _)]
      congr 1
      funext i
      simp only [one_div, star_inv₀, rμ]
    rw [hs _ d1, d1, d2, d3, d4]
  ext p q
  have := congrFun (congrFun hstar p) q
  rw [wgOperator, Matrix.map_apply]
  rw [Matrix.map_apply] at this
  exact (Complex.conj_eq_iff_re).1 this

/-! ### C72 -/

/-- A vector `[H_x, H_y]` is an eigenvector of the operator with eigenvalue `β²` exactly if the fields that are made of it solve
Maxwell's equations with the dependence `exp(-i β z)`. Partial: for real data only. -/
theorem mode_solves_maxwell_partial {d : Dxes2} {D : Derivs (numel (Sec n0 n1))} (hD : derivs n0 n1 d = some D) (ω β : ℂ)
    (hω : ω ≠ 0) (hβ : β ≠ 0) (eps : VField (numel (Sec n0 n1))) (hε : ∀ p, eps p ≠ 0)
    (mu : Option (VField (numel (Sec n0 n1)))) (hμ : ∀ p, muOf mu p ≠ 0) (hr : RealData n0 n1 d ω eps (muOf mu))
    (v : VField2 (numel (Sec n0 n1))) :
    (wgOperator D ω eps mu *ᵥ v = fun p => β ^ 2 * v p) ↔
      IsMode (n0 := n0) (n1 := n1) d ω β (unvec2 eps) (unvec2 (muOf mu)) (unvec2 (v2e D v β ω eps mu))
        (unvec2 (v2h D v β mu)) := by
  rw [operator_real hD ω eps mu hr, eigen_iff D (derivs_comm hD) v ω β hω hβ eps hε mu hμ, maxwell_iff_mode hD]

/-- All modes are found: every solution of Maxwell's equations with the dependence `exp(-i β z)` comes from an eigenvector with
eigenvalue `β²`, namely its transverse magnetic field. -/
theorem modes_complete_partial {d : Dxes2} {D : Derivs (numel (Sec n0 n1))} (hD : derivs n0 n1 d = some D) (ω β : ℂ)
    (hω : ω ≠ 0) (hβ : β ≠ 0) (eps : VField (numel (Sec n0 n1))) (hε : ∀ p, eps p ≠ 0)
    (mu : Option (VField (numel (Sec n0 n1)))) (hμ : ∀ p, muOf mu p ≠ 0) (hr : RealData n0 n1 d ω eps (muOf mu))
    (e h : VField (numel (Sec n0 n1)))
    (hm : IsMode (n0 := n0) (n1 := n1) d ω β (unvec2 eps) (unvec2 (muOf mu)) (unvec2 e) (unvec2 h)) :
    ∃ v : VField2 (numel (Sec n0 n1)), (∀ i, v (0, i) = h (0, i) ∧ v (1, i) = h (1, i)) ∧
      (wgOperator D ω eps mu *ᵥ v = fun p => β ^ 2 * v p) ∧ e = v2e D v β ω eps mu ∧ h = v2h D v β mu := by
  have hM := (maxwell_iff_mode hD ω β eps (muOf mu) e h).2 hm
  obtain ⟨h1, h2⟩ := maxwell_from_v D (derivs_comm hD) ω β hω hβ eps hε mu hμ e h hM
  refine ⟨_, fun i => ⟨rfl, rfl⟩, ?_, h2, h1⟩
  rw [operator_real hD ω eps mu hr, eigen_iff D (derivs_comm hD) _ ω β hω hβ eps hε mu hμ, ← h1, ← h2]
  exact hM

theorem diag_mul3 {n : Nat} (v x : VField n) (p : Fin 3 × Fin n) : (Matrix.diagonal v *ᵥ x) p = v p * x p :=
  Matrix.mulVec_diagonal v x p

theorem wgE2h_apply {n : Nat} (D : Derivs n) (β ω : ℂ) (mu : Option (VField n)) (e : VField n) (p : Fin 3 × Fin n) :
    (wgE2h D β ω mu *ᵥ e) p = (wgCurlE D β *ᵥ e) p / (-Complex.I * ω * muOf mu p) := by
  cases mu with
  | none =>
    simp only [wgE2h, muOf, Option.getD_none, Pi.one_apply, mul_one, Matrix.smul_mulVec, Pi.smul_apply, smul_eq_mul]
    ring
  | some m =>
    simp only [wgE2h, muOf, Option.getD_some]
    rw [← Matrix.mulVec_mulVec, diag_mul3, Matrix.smul_mulVec, Pi.smul_apply, smul_eq_mul]
    rw [div_mul_eq_mul_div, one_mul, div_mul_eq_mul_div, one_mul, div_div]

/-- For a mode the conversions between the two fields are consistent and both errors that the code reports are zero. -/
theorem mode_errors_zero_partial {d : Dxes2} {D : Derivs (numel (Sec n0 n1))} (hD : derivs n0 n1 d = some D) (ω β : ℂ)
    (hω : ω ≠ 0) (hβ : β ≠ 0) (eps : VField (numel (Sec n0 n1))) (hε : ∀ p, eps p ≠ 0)
    (mu : Option (VField (numel (Sec n0 n1)))) (hμ : ∀ p, muOf mu p ≠ 0) (hr : RealData n0 n1 d ω eps (muOf mu))
    (v : VField2 (numel (Sec n0 n1))) (hv : wgOperator D ω eps mu *ᵥ v = fun p => β ^ 2 * v p) :
    wgE2h D β ω mu *ᵥ v2e D v β ω eps mu = v2h D v β mu ∧
    wgH2e D β ω eps *ᵥ v2h D v β mu = v2e D v β ω eps mu ∧
    hErr D (v2h D v β mu) β ω eps mu = 0 ∧ eErr D (v2e D v β ω eps mu) β ω eps mu = 0 := by
  have hI := Complex.I_ne_zero
  have hII : Complex.I * Complex.I = -1 := Complex.I_mul_I
  rw [operator_real hD ω eps mu hr, eigen_iff D (derivs_comm hD) v ω β hω hβ eps hε mu hμ] at hv
  obtain ⟨hE, hH⟩ := hv
  set e := v2e D v β ω eps mu
  set h := v2h D v β mu
  have hz : ∀ x : VField (numel (Sec n0 n1)), (∀ p, x p = 0) → vnorm x = 0 := by
    intro x hx
    rw [vnorm]
    simp only [hx, map_zero, Finset.sum_const_zero, Real.sqrt_zero]
  have hH' : (Matrix.diagonal fun p => 1 / eps p) *ᵥ (wgCurlH D β *ᵥ h) = fun p => (Complex.I * ω) * e p := by
    funext p
    rw [diag_mul3, hH]
    have := hε p
    field_simp
  have hsm : ∀ (A : Mat3 (numel (Sec n0 n1))) (a : ℂ) (f : VField (numel (Sec n0 n1))) p,
      (A *ᵥ fun p => a * f p) p = a * (A *ᵥ f) p := by
    intro A a f p
    have : (fun p => a * f p) = a • f := rfl
    rw [this, Matrix.mulVec_smul]; rfl
  refine ⟨?_, rfl, ?_, ?_⟩
  · funext p
    rw [wgE2h_apply, hE p]
    have := hμ p
    field_simp
  · cases mu with
    | none =>
      simp only [hErr]
      rw [hz, zero_div]
      intro p
      rw [Pi.sub_apply, ← Matrix.mulVec_mulVec, ← Matrix.mulVec_mulVec, hH', hsm, hE p, muOf, Option.getD_none, Pi.one_apply]
      linear_combination (-ω ^ 2 * h p) * hII
    | some m =>
      simp only [hErr]
      rw [hz, zero_div]
      intro p
      rw [Pi.sub_apply, ← Matrix.mulVec_mulVec, ← Matrix.mulVec_mulVec, hH', hsm, hE p, muOf, Option.getD_some]
      linear_combination (-ω ^ 2 * m p * h p) * hII
  · cases mu with
    | none =>
      simp only [eErr]
      rw [hz, zero_div]
      intro p
      have h1 : wgCurlE D β *ᵥ e = fun p => (-Complex.I * ω) * h p := by
        funext p
        rw [hE p, muOf, Option.getD_none, Pi.one_apply]; ring
      rw [Pi.sub_apply, ← Matrix.mulVec_mulVec, h1, hsm, hH p]
      linear_combination (-ω ^ 2 * eps p * e p) * hII
    | some m =>
      simp only [eErr]
      rw [hz, zero_div]
      intro p
      have h1 : (Matrix.diagonal fun p => 1 / m p) *ᵥ (wgCurlE D β *ᵥ e) = fun p => (-Complex.I * ω) * h p := by
        funext p
        have := hμ p
        rw [diag_mul3, hE p]
        rw [muOf, Option.getD_some] at this ⊢
        field_simp
      rw [Pi.sub_apply, ← Matrix.mulVec_mulVec, ← Matrix.mulVec_mulVec, h1, hsm, hH p]
      linear_combination (-ω ^ 2 * eps p * e p) * hII

end Verif.Fdfd
