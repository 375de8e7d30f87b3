import Verif.Fdfd.WaveguideProps
import Mathlib.Tactic.FinCases
import Mathlib.Tactic.NormNum
/-
Property C72: complex permittivity, and concrete modes. Property C73: normalisation of the modes.
-/
set_option linter.unusedSimpArgs false
namespace Verif.Fdfd
open Matrix
variable {n0 n1 : Nat}

/-! ### Concrete modes on a grid with one row of unit cells -/

/-- The grid with unit cells. -/
def unitDx : Dxes2 := ⟨fun _ _ => 1, fun _ _ => 1⟩

/-- A vectorised field on `n0` times 1 cells. -/
def onRow (F : Fin 3 → Fin n0 → ℂ) : VField (numel (Sec n0 1)) := fun p =>
  F p.1 ⟨p.2.val, lt_of_lt_of_eq p.2.isLt (by simp [numel])⟩

theorem unvec2_onRow (F : Fin 3 → Fin n0 → ℂ) (a : Fin 3) (i : Fin n0) (j : Fin 1) :
    unvec2 (n0 := n0) (n1 := 1) (onRow F) a i j = F a i := by
  rw [unvec2_eq, onRow]
  congr 1
  apply Fin.ext
  simp [pos2, ravelF]

/-- `H_y = f` with the matching electric field. -/
noncomputable def rowE (ω β : ℂ) (f : Fin n0 → ℂ) : Fin 3 → Fin n0 → ℂ :=
  ![fun i => β / ω * f i, fun _ => 0, fun i => (f i - f (prevIx i)) / (Complex.I * ω)]
def rowH (f : Fin n0 → ℂ) : Fin 3 → Fin n0 → ℂ := ![fun _ => 0, f, fun _ => 0]

theorem nextIx_one (j : Fin 1) : nextIx j = j := Subsingleton.elim _ _
theorem prevIx_one (j : Fin 1) : prevIx j = j := Subsingleton.elim _ _

theorem row_mode (ω β κ : ℂ) (hω : ω ≠ 0) (hk : ω ^ 2 = β ^ 2 + κ) (f : Fin n0 → ℂ)
    (hf : ∀ i, f (nextIx i) - 2 * f i + f (prevIx i) = -κ * f i) :
    IsMode (n0 := n0) (n1 := 1) unitDx ω β (fun _ _ _ => 1) (fun _ _ _ => 1) (fun a i _ => rowE ω β f a i)
      (fun a i _ => rowH f a i) := by
  have hI := Complex.I_ne_zero
  have hII : Complex.I ^ 2 = -1 := Complex.I_sq
  constructor <;> intro i j <;>
    simp only [dFwd0, dFwd1, dBack0, dBack1, rowE, rowH, unitDx, Matrix.cons_val, prevIx_nextIx, div_one] <;> try ring1
  · have := hf i
    field_simp
    linear_combination -this - hk * f i + (-β ^ 2 * f i + ω ^ 2 * f i) * hII
  · field_simp
    ring
  · field_simp
    ring

/-- The data of a row of unit cells in vacuum are real. -/
theorem row_real (ω : ℂ) (hω : star (ω ^ 2) = ω ^ 2) :
    RealData n0 1 unitDx ω (onRow fun _ _ => 1) (muOf none) :=
  ⟨fun _ => ⟨star_one ℂ, star_one ℂ⟩, fun _ => ⟨star_one ℂ, star_one ℂ⟩, hω, fun _ => star_one ℂ, fun _ => star_one ℂ⟩

/-- The eigenvector that belongs to the mode. -/
theorem row_eigen {D : Derivs (numel (Sec n0 1))} (hD : derivs n0 1 unitDx = some D) (ω β κ : ℂ) (hω : ω ≠ 0) (hβ : β ≠ 0)
    (hk : ω ^ 2 = β ^ 2 + κ) (hr : star (ω ^ 2) = ω ^ 2) (f : Fin n0 → ℂ)
    (hf : ∀ i, f (nextIx i) - 2 * f i + f (prevIx i) = -κ * f i) :
    ∃ v : VField2 (numel (Sec n0 1)), (wgOperator D ω (onRow fun _ _ => 1) none *ᵥ v = fun p => β ^ 2 * v p) ∧
      v2e D v β ω (onRow fun _ _ => 1) none = onRow (rowE ω β f) ∧ v2h D v β none = onRow (rowH f) := by
  have hm : IsMode (n0 := n0) (n1 := 1) unitDx ω β (unvec2 (onRow fun _ _ => 1)) (unvec2 (muOf none))
      (unvec2 (onRow (rowE ω β f))) (unvec2 (onRow (rowH f))) := by
    have h := row_mode ω β κ hω hk f hf
    have e1 : unvec2 (n0 := n0) (n1 := 1) (onRow fun _ _ => 1) = fun _ _ _ => 1 := by
      funext a i j; rw [unvec2_onRow]
    have e2 : unvec2 (n0 := n0) (n1 := 1) (muOf none) = fun _ _ _ => 1 := by
      funext a i j; rw [unvec2_eq]; rfl
    have e3 : unvec2 (n0 := n0) (n1 := 1) (onRow (rowE ω β f)) = fun a i _ => rowE ω β f a i := by
      funext a i j; rw [unvec2_onRow]
    have e4 : unvec2 (n0 := n0) (n1 := 1) (onRow (rowH f)) = fun a i _ => rowH f a i := by
      funext a i j; rw [unvec2_onRow]
    rw [e1, e2, e3, e4]
    exact h
  obtain ⟨v, -, h2, h3, h4⟩ := modes_complete_partial hD ω β hω hβ (onRow fun _ _ => 1) (fun _ => one_ne_zero) none
    (fun _ => one_ne_zero) (row_real ω hr) _ _ hm
  exact ⟨v, h2, h3.symm, h4.symm⟩

theorem star_rat (q : ℚ) : star (q : ℂ) = (q : ℂ) := by
  have : ((q : ℝ) : ℂ) = (q : ℂ) := by norm_cast
  rw [← this]
  exact Complex.conj_ofReal _

/-- The hypotheses of the theorems about modes are met: two cells, `H_y = ±1`, `ω = 5/2`, `β = 3/2`. -/
example : ∃ (D : Derivs (numel (Sec 2 1))) (v : VField2 (numel (Sec 2 1))), derivs 2 1 unitDx = some D ∧
    RealData 2 1 unitDx ((5 / 2 : ℚ) : ℂ) (onRow fun _ _ => 1) (muOf none) ∧
    (wgOperator D ((5 / 2 : ℚ) : ℂ) (onRow fun _ _ => 1) none *ᵥ v = fun p => ((3 / 2 : ℚ) : ℂ) ^ 2 * v p) ∧ v ≠ 0 := by
  obtain ⟨D, hD, -⟩ := derivs_spec (n0 := 2) (n1 := 1) unitDx
  have hs : star (((5 / 2 : ℚ) : ℂ) ^ 2) = ((5 / 2 : ℚ) : ℂ) ^ 2 := by rw [star_pow, star_rat]
  obtain ⟨v, h1, -, h3⟩ := row_eigen hD ((5 / 2 : ℚ) : ℂ) ((3 / 2 : ℚ) : ℂ) 4 (by norm_num) (by norm_num) (by norm_num) hs
    ![1, -1] (by intro i; fin_cases i <;> norm_num [nextIx, prevIx])
  refine ⟨D, v, hD, row_real _ hs, h1, ?_⟩
  rintro rfl
  have h := congrFun h3 (1, ⟨0, by decide⟩)
  rw [(v2h_apply D 0 _ none _).2.1] at h
  simp [onRow, rowH] at h

/-! ### C72: complex permittivity -/

/-- With a complex permittivity the operator is truncated to its real part, and the fields do not solve Maxwell's equations:
one cell with `ε = 1 + i`. -/
theorem mode_complex_eps_false : ¬ ∀ (n0 n1 : Nat) (d : Dxes2) (D : Derivs (numel (Sec n0 n1))), derivs n0 n1 d = some D →
    ∀ (ω β : ℂ), ω ≠ 0 → β ≠ 0 → ∀ eps : VField (numel (Sec n0 n1)), (∀ p, eps p ≠ 0) → ∀ v : VField2 (numel (Sec n0 n1)),
      (wgOperator D ω eps none *ᵥ v = fun p => β ^ 2 * v p) →
      IsMode (n0 := n0) (n1 := n1) d ω β (unvec2 eps) (unvec2 (muOf none)) (unvec2 (v2e D v β ω eps none))
        (unvec2 (v2h D v β none)) := by
  intro hall
  obtain ⟨D, hD, fx, fy, bx, bY, -⟩ := derivs_spec (n0 := 1) (n1 := 1) unitDx
  have hz : ∀ (A : Mat (numel (Sec 1 1))), (∀ v p, (A *ᵥ v) p = 0) → A = 0 := by
    intro A hA
    ext p q
    have := hA (Pi.single q 1) p
    rw [Matrix.mulVec_single_one] at this
    exact this
  have zfx : D.fx = 0 := hz _ fun v p => by
    obtain ⟨i, j, rfl⟩ := pos2_surj p
    rw [fx, Subsingleton.elim (nextIx i) i, sub_self, zero_div]
  have zfy : D.fy = 0 := hz _ fun v p => by
    obtain ⟨i, j, rfl⟩ := pos2_surj p
    rw [fy, Subsingleton.elim (nextIx j) j, sub_self, zero_div]
  have zbx : D.bx = 0 := hz _ fun v p => by
    obtain ⟨i, j, rfl⟩ := pos2_surj p
    rw [bx, Subsingleton.elim (prevIx i) i, sub_self, zero_div]
  have zbY : D.bY = 0 := hz _ fun v p => by
    obtain ⟨i, j, rfl⟩ := pos2_surj p
    rw [bY, Subsingleton.elim (prevIx j) j, sub_self, zero_div]
  have hne : (1 + Complex.I) ≠ 0 := by
    intro h
    have := congrArg Complex.re h
    simp at this
  have hfull : ∀ v p, (wgFull D 1 (fun _ => 1 + Complex.I) none *ᵥ v) p = (1 + Complex.I) * v p := by
    intro v p
    obtain ⟨a, i⟩ := p
    match a with
    | 0 =>
      rw [(wgFull_mulVec D 1 _ none v i).1, zfy, zbx]
      simp [muOf]
    | 1 =>
      rw [(wgFull_mulVec D 1 _ none v i).2, zfx, zbY]
      simp [muOf]
  have hop : wgOperator D 1 (fun _ => 1 + Complex.I) none = 1 := by
    ext p q
    have h := hfull (Pi.single q 1) p
    rw [Matrix.mulVec_single_one] at h
    rw [wgOperator, Matrix.map_apply]
    have h' : wgFull D 1 (fun _ => 1 + Complex.I) none p q = (1 + Complex.I) * (Pi.single q 1 : VField2 _) p := h
    rw [h', Matrix.one_apply, Pi.single_apply]
    by_cases hpq : p = q
    · rw [if_pos hpq]; simp
    · rw [if_neg hpq]; simp
  have h := hall 1 1 unitDx D hD 1 1 one_ne_zero one_ne_zero (fun _ => 1 + Complex.I) (fun _ => hne) (fun _ => 1)
    (by rw [hop, Matrix.one_mulVec]; funext p; ring)
  rw [← maxwell_iff_mode hD, ← eigen_iff D (derivs_comm hD) _ 1 1 one_ne_zero one_ne_zero _ (fun _ => hne) none
    (fun _ => one_ne_zero)] at h
  have := congrFun h (0, ⟨0, by decide⟩)
  rw [hfull] at this
  have := congrArg Complex.im this
  simp at this

/-! ### C73 -/

/-- The average power through the plane: half the real part of the sum of `E × conj H` over the areas on which the two fields
live. Both factors of each product are at the same place of the cross-section. -/
noncomputable def modeFlux (d : Dxes2) (E H : Fin 3 → Arr2 n0 n1) : ℝ :=
  0.5 * (∑ i, ∑ j, (E 0 i j * star (H 1 i j) * ((d.e 0 i).re : ℂ) * ((d.h 1 j).re : ℂ) -
    E 1 i j * star (H 0 i j) * ((d.e 1 j).re : ℂ) * ((d.h 0 i).re : ℂ))).re

/-- What the code normalises instead: the magnetic field is that of the neighbouring cell and the areas are swapped. -/
noncomputable def shiftedFlux (d : Dxes2) (E H : Fin 3 → Arr2 n0 n1) : ℝ :=
  0.5 * (∑ i, ∑ j, (E 0 i j * star (H 1 (prevIx i) j) * ((d.e 1 j).re : ℂ) * ((d.h 0 i).re : ℂ) -
    E 1 i j * star (H 0 i (prevIx j)) * ((d.e 0 i).re : ℂ) * ((d.h 1 j).re : ℂ))).re

theorem sum_prev {m : Nat} (f : Fin m → ℂ) : ∑ i, f (prevIx i) = ∑ i, f i :=
  Equiv.sum_comp ⟨prevIx, nextIx, nextIx_prevIx, prevIx_nextIx⟩ f

theorem wgPower_eq (d : Dxes2) (e h : VField (numel (Sec n0 n1))) :
    wgPower n0 n1 d e h = shiftedFlux d (unvec2 (n0 := n0) (n1 := n1) e) (unvec2 (n0 := n0) (n1 := n1) h) := by
  have r0 : ∀ (f : Arr2 n0 n1) i j, roll0 f i j = f (prevIx i) j := fun _ _ _ => rfl
  have r1 : ∀ (f : Arr2 n0 n1) i j, roll1 f i j = f i (prevIx j) := fun _ _ _ => rfl
  have s0 : ∀ f : Arr2 n0 n1, ∑ i, ∑ j, f (prevIx i) j = ∑ i, ∑ j, f i j := fun f => sum_prev fun i => ∑ j, f i j
  have s1 : ∀ f : Arr2 n0 n1, ∑ i, ∑ j, f i (prevIx j) = ∑ i, ∑ j, f i j := fun f =>
    Finset.sum_congr rfl fun i _ => sum_prev (f i)
  unfold wgPower shiftedFlux
  simp only [r0, r1]
  congr 2
  simp only [← Finset.mul_sum, Finset.sum_sub_distrib, Finset.sum_add_distrib]
  have a := s0 fun i j => unvec2 (n0 := n0) (n1 := n1) e 0 i j * star (unvec2 (n0 := n0) (n1 := n1) h 1 (prevIx i) j) *
    ((d.e 1 j).re : ℂ) * ((d.h 0 i).re : ℂ)
  have b := s1 fun i j => unvec2 (n0 := n0) (n1 := n1) e 1 i j * star (unvec2 (n0 := n0) (n1 := n1) h 0 i (prevIx j)) *
    ((d.e 0 i).re : ℂ) * ((d.h 1 j).re : ℂ)
  rw [a, b]
  norm_num
  ring

theorem shiftedFlux_scale (d : Dxes2) (E H : Fin 3 → Arr2 n0 n1) (f : ℂ) :
    shiftedFlux d (fun a i j => E a i j * f) (fun a i j => H a i j * f) = Complex.normSq f * shiftedFlux d E H := by
  unfold shiftedFlux
  have hf : f * star f = (Complex.normSq f : ℂ) := Complex.mul_conj f
  have : (∑ i, ∑ j, (E 0 i j * f * star (H 1 (prevIx i) j * f) * ((d.e 1 j).re : ℂ) * ((d.h 0 i).re : ℂ) -
      E 1 i j * f * star (H 0 i (prevIx j) * f) * ((d.e 0 i).re : ℂ) * ((d.h 1 j).re : ℂ))) =
      (Complex.normSq f : ℂ) * ∑ i, ∑ j, (E 0 i j * star (H 1 (prevIx i) j) * ((d.e 1 j).re : ℂ) * ((d.h 0 i).re : ℂ) -
        E 1 i j * star (H 0 i (prevIx j)) * ((d.e 0 i).re : ℂ) * ((d.h 1 j).re : ℂ)) := by
    rw [Finset.mul_sum]
    refine Finset.sum_congr rfl fun i _ => ?_
    rw [Finset.mul_sum]
    refine Finset.sum_congr rfl fun j _ => ?_
    rw [← hf, star_mul', star_mul']
    ring
  rw [this, Complex.re_ofReal_mul]
  ring

theorem modeFlux_scale (d : Dxes2) (E H : Fin 3 → Arr2 n0 n1) (f : ℂ) :
    modeFlux d (fun a i j => E a i j * f) (fun a i j => H a i j * f) = Complex.normSq f * modeFlux d E H := by
  unfold modeFlux
  have hf : f * star f = (Complex.normSq f : ℂ) := Complex.mul_conj f
  have : (∑ i, ∑ j, (E 0 i j * f * star (H 1 i j * f) * ((d.e 0 i).re : ℂ) * ((d.h 1 j).re : ℂ) -
      E 1 i j * f * star (H 0 i j * f) * ((d.e 1 j).re : ℂ) * ((d.h 0 i).re : ℂ))) =
      (Complex.normSq f : ℂ) * ∑ i, ∑ j, (E 0 i j * star (H 1 i j) * ((d.e 0 i).re : ℂ) * ((d.h 1 j).re : ℂ) -
        E 1 i j * star (H 0 i j) * ((d.e 1 j).re : ℂ) * ((d.h 0 i).re : ℂ)) := by
    rw [Finset.mul_sum]
    refine Finset.sum_congr rfl fun i _ => ?_
    rw [Finset.mul_sum]
    refine Finset.sum_congr rfl fun j _ => ?_
    rw [← hf, star_mul', star_mul']
    ring
  rw [this, Complex.re_ofReal_mul]
  ring

theorem mode_scale {d : Dxes2} {ω β : ℂ} {ε μ E H : Fin 3 → Arr2 n0 n1} (h : IsMode d ω β ε μ E H) (f : ℂ) :
    IsMode d ω β ε μ (fun a i j => E a i j * f) (fun a i j => H a i j * f) := by
  constructor <;> intro i j <;> simp only [dFwd0, dFwd1, dBack0, dBack1]
  · have := h.ex i j; simp only [dFwd0, dFwd1] at this; linear_combination f * this
  · have := h.ey i j; simp only [dFwd0, dFwd1] at this; linear_combination f * this
  · have := h.ez i j; simp only [dFwd0, dFwd1] at this; linear_combination f * this
  · have := h.hx i j; simp only [dBack0, dBack1] at this; linear_combination f * this
  · have := h.hy i j; simp only [dBack0, dBack1] at this; linear_combination f * this
  · have := h.hz i j; simp only [dBack0, dBack1] at this; linear_combination f * this

theorem unvec2_scale (e : VField (numel (Sec n0 n1))) (f : ℂ) :
    unvec2 (n0 := n0) (n1 := n1) (fun p => e p * f) = fun a i j => unvec2 (n0 := n0) (n1 := n1) e a i j * f := by
  funext a i j
  rw [unvec2_eq, unvec2_eq]

/-- When the assertion holds, what comes back. -/
theorem normalizedFields_some {d : Dxes2} {D : Derivs (numel (Sec n0 n1))} {ω β : ℂ} {eps : VField (numel (Sec n0 n1))}
    {mu : Option (VField (numel (Sec n0 n1)))} {v : VField2 (numel (Sec n0 n1))} {e h : VField (numel (Sec n0 n1))}
    (hn : normalizedFields n0 n1 D d v β ω eps mu = some (e, h)) :
    0 < wgPower n0 n1 d (v2e D v β ω eps mu) (v2h D v β mu) ∧ ∃ f : ℂ,
      Complex.normSq f = 1 / wgPower n0 n1 d (v2e D v β ω eps mu) (v2h D v β mu) ∧
      (∃ r : ℝ, 0 ≤ r ∧ middle (v2e D v β ω eps mu) * f = r) ∧
      e = (fun p => v2e D v β ω eps mu p * f) ∧ h = (fun p => v2h D v β mu p * f) := by
  unfold normalizedFields at hn
  set P := wgPower n0 n1 d (v2e D v β ω eps mu) (v2h D v β mu)
  simp only [] at hn
  by_cases hP : 0 < P
  · rw [if_pos hP] at hn
    simp only [Option.some.injEq, Prod.mk.injEq] at hn
    refine ⟨hP, _, ?_, ?_, hn.1.symm, hn.2.symm⟩
    · rw [Complex.normSq_mul, Complex.normSq_ofReal, mul_comm Complex.I, Complex.normSq_eq_norm_sq,
        Complex.norm_exp_ofReal_mul_I]
      have := Real.mul_self_sqrt hP.le
      rw [← this]
      have hs : Real.sqrt P ≠ 0 := (Real.sqrt_pos.2 hP).ne'
      rw [this]
      rw [div_mul_div_comm, this]
      norm_num
    · refine ⟨‖middle (v2e D v β ω eps mu)‖ * (1 / Real.sqrt P), by positivity, ?_⟩
      set z := middle (v2e D v β ω eps mu)
      have hz : z = (‖z‖ : ℂ) * Complex.exp ((z.arg : ℂ) * Complex.I) := (Complex.norm_mul_exp_arg_mul_I z).symm
      have hexp : Complex.exp ((z.arg : ℂ) * Complex.I) * Complex.exp (Complex.I * ((-z.arg : ℝ) : ℂ)) = 1 := by
        rw [← Complex.exp_add]
        have : (z.arg : ℂ) * Complex.I + Complex.I * ((-z.arg : ℝ) : ℂ) = 0 := by push_cast; ring
        rw [this, Complex.exp_zero]
      push_cast at hexp ⊢
      calc z * (1 / (Real.sqrt P : ℂ) * Complex.exp (Complex.I * -(z.arg : ℂ)))
          = (‖z‖ : ℂ) * Complex.exp ((z.arg : ℂ) * Complex.I) *
            (1 / (Real.sqrt P : ℂ) * Complex.exp (Complex.I * -(z.arg : ℂ))) := by rw [← hz]
        _ = (‖z‖ : ℂ) * (1 / (Real.sqrt P : ℂ)) *
            (Complex.exp ((z.arg : ℂ) * Complex.I) * Complex.exp (Complex.I * -(z.arg : ℂ))) := by ring
        _ = _ := by rw [hexp]; ring
  · rw [if_neg hP] at hn
    cases hn

theorem middle_eq {n : Nat} (e : VField n) (hn : 0 < n) : middle e = e (1, ⟨n / 2, Nat.div_lt_self hn (by decide)⟩) := by
  have h1 : 3 * n / 2 / n = 1 := by
    rw [Nat.div_div_eq_div_mul, mul_comm 2 n, ← Nat.div_div_eq_div_mul, Nat.mul_div_cancel _ hn]
  have h2 : 3 * n / 2 % n = n / 2 := by
    have := Nat.div_add_mod (3 * n / 2) n
    rw [h1] at this
    omega
  unfold middle
  rw [dif_pos (by rw [h2]; exact Nat.div_lt_self hn (by decide)), dif_pos (by rw [h1]; decide)]
  congr 1
  refine Prod.ext ?_ ?_
  · exact Fin.ext h1
  · exact Fin.ext h2

/-- The normalised fields are again a mode, the element in the middle of the vector is real and not negative, and the quantity
that the code normalises is 1. Partial: this quantity is not the power of the mode, see below. -/
theorem normalized_partial {d : Dxes2} {D : Derivs (numel (Sec n0 n1))} (hD : derivs n0 n1 d = some D) (ω β : ℂ)
    (hω : ω ≠ 0) (hβ : β ≠ 0) (eps : VField (numel (Sec n0 n1))) (hε : ∀ p, eps p ≠ 0)
    (mu : Option (VField (numel (Sec n0 n1)))) (hμ : ∀ p, muOf mu p ≠ 0) (hr : RealData n0 n1 d ω eps (muOf mu))
    (v : VField2 (numel (Sec n0 n1))) (hv : wgOperator D ω eps mu *ᵥ v = fun p => β ^ 2 * v p)
    {e h : VField (numel (Sec n0 n1))} (hn : normalizedFields n0 n1 D d v β ω eps mu = some (e, h)) :
    IsMode (n0 := n0) (n1 := n1) d ω β (unvec2 eps) (unvec2 (muOf mu)) (unvec2 e) (unvec2 h) ∧
    shiftedFlux d (unvec2 (n0 := n0) (n1 := n1) e) (unvec2 (n0 := n0) (n1 := n1) h) = 1 ∧
    ∀ hpos : numel (Sec n0 n1) / 2 < numel (Sec n0 n1), ∃ r : ℝ, 0 ≤ r ∧ e (1, ⟨numel (Sec n0 n1) / 2, hpos⟩) = r := by
  obtain ⟨hP, f, hf, hmid, rfl, rfl⟩ := normalizedFields_some hn
  refine ⟨?_, ?_, ?_⟩
  · rw [unvec2_scale, unvec2_scale]
    exact mode_scale ((mode_solves_maxwell_partial hD ω β hω hβ eps hε mu hμ hr v).1 hv) f
  · rw [unvec2_scale, unvec2_scale, shiftedFlux_scale, ← wgPower_eq, hf]
    exact one_div_mul_cancel hP.ne'
  · intro hpos
    obtain ⟨r, h0, h1⟩ := hmid
    refine ⟨r, h0, ?_⟩
    rw [middle_eq _ (by omega)] at h1
    exact h1

/-- The power of a row mode and what the code computes for it. -/
theorem row_flux (ω β : ℚ) (f : Fin n0 → ℚ) :
    modeFlux (n0 := n0) (n1 := 1) unitDx (unvec2 (onRow (rowE (ω : ℂ) β fun i => (f i : ℂ))))
      (unvec2 (onRow (rowH fun i => (f i : ℂ)))) = ((1 / 2 * (β / ω) * ∑ i, f i * f i : ℚ) : ℝ) ∧
    shiftedFlux (n0 := n0) (n1 := 1) unitDx (unvec2 (onRow (rowE (ω : ℂ) β fun i => (f i : ℂ))))
      (unvec2 (onRow (rowH fun i => (f i : ℂ)))) = ((1 / 2 * (β / ω) * ∑ i, f i * f (prevIx i) : ℚ) : ℝ) := by
  have hre : ∀ q : ℚ, ((q : ℂ)).re = (q : ℝ) := fun q => Complex.ratCast_re q
  constructor
  · unfold modeFlux
    simp only [unvec2_onRow, rowE, rowH, Matrix.cons_val, unitDx, star_rat, Complex.one_re, Complex.ofReal_one, mul_one,
      zero_mul, sub_zero, Finset.univ_unique, Finset.sum_singleton]
    have : ∑ i, (β : ℂ) / ω * f i * (f i : ℂ) = ((β / ω * ∑ i, f i * f i : ℚ) : ℂ) := by
      push_cast
      rw [Finset.mul_sum]
      exact Finset.sum_congr rfl fun i _ => by ring
    rw [this, hre]
    push_cast
    norm_num
    ring
  · unfold shiftedFlux
    simp only [unvec2_onRow, rowE, rowH, Matrix.cons_val, unitDx, star_rat, Complex.one_re, Complex.ofReal_one, mul_one,
      zero_mul, sub_zero, Finset.univ_unique, Finset.sum_singleton]
    have : ∑ i, (β : ℂ) / ω * f i * (f (prevIx i) : ℂ) = ((β / ω * ∑ i, f i * f (prevIx i) : ℚ) : ℂ) := by
      push_cast
      rw [Finset.mul_sum]
      exact Finset.sum_congr rfl fun i _ => by ring
    rw [this, hre]
    push_cast
    norm_num
    ring

/-- A forward mode, with positive power, is rejected by the assertion: two cells with `H_y = ±1`. -/
theorem normalized_rejects_forward_false : ¬ ∀ (n0 n1 : Nat) (d : Dxes2) (D : Derivs (numel (Sec n0 n1))),
    derivs n0 n1 d = some D → ∀ (ω β : ℂ) (eps : VField (numel (Sec n0 n1))), RealData n0 n1 d ω eps (muOf none) →
    ∀ v : VField2 (numel (Sec n0 n1)), (wgOperator D ω eps none *ᵥ v = fun p => β ^ 2 * v p) →
      0 < modeFlux d (unvec2 (n0 := n0) (n1 := n1) (v2e D v β ω eps none)) (unvec2 (n0 := n0) (n1 := n1) (v2h D v β none)) →
      ∃ r, normalizedFields n0 n1 D d v β ω eps none = some r := by
  intro hall
  obtain ⟨D, hD, -⟩ := derivs_spec (n0 := 2) (n1 := 1) unitDx
  have hs : star (((5 / 2 : ℚ) : ℂ) ^ 2) = ((5 / 2 : ℚ) : ℂ) ^ 2 := by rw [star_pow, star_rat]
  obtain ⟨v, h1, h2, h3⟩ := row_eigen hD ((5 / 2 : ℚ) : ℂ) ((3 / 2 : ℚ) : ℂ) 4 (by norm_num) (by norm_num) (by norm_num) hs
    (fun i => ((![1, -1] i : ℚ) : ℂ)) (by intro i; fin_cases i <;> norm_num [nextIx, prevIx])
  obtain ⟨f1, f2⟩ := row_flux (5 / 2) (3 / 2) ![1, -1]
  obtain ⟨r, hr⟩ := hall 2 1 unitDx D hD _ _ _ (row_real _ hs) v h1 (by
    rw [h2, h3, f1]
    norm_num [Fin.sum_univ_two])
  have := (normalizedFields_some (e := r.1) (h := r.2) hr).1
  rw [wgPower_eq, h2, h3, f2] at this
  norm_num [Fin.sum_univ_two, prevIx] at this

/-- A row of six cells with a standing wave across. -/
theorem six_cells : ∃ (D : Derivs (numel (Sec 6 1))) (v : VField2 (numel (Sec 6 1)))
    (r : VField (numel (Sec 6 1)) × VField (numel (Sec 6 1))), derivs 6 1 unitDx = some D ∧
    star (((5 / 4 : ℚ) : ℂ) ^ 2) = ((5 / 4 : ℚ) : ℂ) ^ 2 ∧
    (wgOperator D ((5 / 4 : ℚ) : ℂ) (onRow fun _ _ => 1) none *ᵥ v = fun p => ((3 / 4 : ℚ) : ℂ) ^ 2 * v p) ∧
    wgPower 6 1 unitDx (v2e D v ((3 / 4 : ℚ) : ℂ) ((5 / 4 : ℚ) : ℂ) (onRow fun _ _ => 1) none)
      (v2h D v ((3 / 4 : ℚ) : ℂ) none) = 9 / 20 ∧
    modeFlux unitDx (unvec2 (n0 := 6) (n1 := 1) (v2e D v ((3 / 4 : ℚ) : ℂ) ((5 / 4 : ℚ) : ℂ) (onRow fun _ _ => 1) none))
      (unvec2 (n0 := 6) (n1 := 1) (v2h D v ((3 / 4 : ℚ) : ℂ) none)) = 9 / 10 ∧
    normalizedFields 6 1 D unitDx v ((3 / 4 : ℚ) : ℂ) ((5 / 4 : ℚ) : ℂ) (onRow fun _ _ => 1) none = some r := by
  obtain ⟨D, hD, -⟩ := derivs_spec (n0 := 6) (n1 := 1) unitDx
  have hs : star (((5 / 4 : ℚ) : ℂ) ^ 2) = ((5 / 4 : ℚ) : ℂ) ^ 2 := by rw [star_pow, star_rat]
  obtain ⟨v, h1, h2, h3⟩ := row_eigen hD ((5 / 4 : ℚ) : ℂ) ((3 / 4 : ℚ) : ℂ) 1 (by norm_num) (by norm_num) (by norm_num) hs
    (fun i => ((![1, 1 / 2, -1 / 2, -1, -1 / 2, 1 / 2] i : ℚ) : ℂ))
    (by intro i; fin_cases i <;> norm_num [nextIx, prevIx])
  obtain ⟨f1, f2⟩ := row_flux (5 / 4) (3 / 4) ![1, 1 / 2, -1 / 2, -1, -1 / 2, 1 / 2]
  have hP : wgPower 6 1 unitDx (v2e D v ((3 / 4 : ℚ) : ℂ) ((5 / 4 : ℚ) : ℂ) (onRow fun _ _ => 1) none)
      (v2h D v ((3 / 4 : ℚ) : ℂ) none) = 9 / 20 := by
    have q : (1 / 2 * (3 / 4 / (5 / 4)) * ∑ i : Fin 6, (![1, 1 / 2, -1 / 2, -1, -1 / 2, 1 / 2] : Fin 6 → ℚ) i *
        (![1, 1 / 2, -1 / 2, -1, -1 / 2, 1 / 2] : Fin 6 → ℚ) (prevIx i)) = 9 / 20 := by decide +kernel
    rw [wgPower_eq, h2, h3, f2, q]
    norm_num
  have hM : modeFlux unitDx (unvec2 (n0 := 6) (n1 := 1) (v2e D v ((3 / 4 : ℚ) : ℂ) ((5 / 4 : ℚ) : ℂ) (onRow fun _ _ => 1) none))
      (unvec2 (n0 := 6) (n1 := 1) (v2h D v ((3 / 4 : ℚ) : ℂ) none)) = 9 / 10 := by
    have q : (1 / 2 * (3 / 4 / (5 / 4)) * ∑ i : Fin 6, (![1, 1 / 2, -1 / 2, -1, -1 / 2, 1 / 2] : Fin 6 → ℚ) i *
        (![1, 1 / 2, -1 / 2, -1, -1 / 2, 1 / 2] : Fin 6 → ℚ) i) = 9 / 10 := by decide +kernel
    rw [h2, h3, f1, q]
    norm_num
  obtain ⟨r, hr⟩ : ∃ r, normalizedFields 6 1 D unitDx v ((3 / 4 : ℚ) : ℂ) ((5 / 4 : ℚ) : ℂ) (onRow fun _ _ => 1) none = some r := by
    unfold normalizedFields
    simp only []
    rw [hP, if_pos (by norm_num)]
    exact ⟨_, rfl⟩
  exact ⟨D, v, r, hD, hs, h1, hP, hM, hr⟩

/-- The hypotheses of `normalized_partial` are met, by a field that is not constant. -/
example : ∃ e h : VField (numel (Sec 6 1)),
    shiftedFlux unitDx (unvec2 (n0 := 6) (n1 := 1) e) (unvec2 (n0 := 6) (n1 := 1) h) = 1 := by
  obtain ⟨D, v, r, hD, hs, h1, -, -, hr⟩ := six_cells
  exact ⟨r.1, r.2, (normalized_partial hD _ _ (by norm_num) (by norm_num) _ (fun p => one_ne_zero) none (fun p => one_ne_zero)
    (row_real _ hs) v h1 (e := r.1) (h := r.2) hr).2.1⟩

/-- Six cells with `H_y = cos(π i / 3)`: the fields that come back carry the power 2 instead of 1. -/
theorem normalized_power_false : ¬ ∀ (n0 n1 : Nat) (d : Dxes2) (D : Derivs (numel (Sec n0 n1))),
    derivs n0 n1 d = some D → ∀ (ω β : ℂ) (eps : VField (numel (Sec n0 n1))), RealData n0 n1 d ω eps (muOf none) →
    ∀ v : VField2 (numel (Sec n0 n1)), (wgOperator D ω eps none *ᵥ v = fun p => β ^ 2 * v p) →
      ∀ e h, normalizedFields n0 n1 D d v β ω eps none = some (e, h) →
        modeFlux d (unvec2 (n0 := n0) (n1 := n1) e) (unvec2 (n0 := n0) (n1 := n1) h) = 1 := by
  intro hall
  obtain ⟨D, v, r, hD, hs, h1, hP, hM, hr⟩ := six_cells
  have h := hall 6 1 unitDx D hD _ _ _ (row_real _ hs) v h1 r.1 r.2 hr
  obtain ⟨-, f, hf, -, e1, e2⟩ := normalizedFields_some (e := r.1) (h := r.2) hr
  rw [e1, e2, unvec2_scale, unvec2_scale, modeFlux_scale, hf, hP, hM] at h
  norm_num at h

end Verif.Fdfd
