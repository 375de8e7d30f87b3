import Verif.Fdfd.WaveguideOverlap
import Verif.Fdfd.WaveguideOneWay
import Mathlib.Algebra.BigOperators.Field
/-
Property C104: what the overlap vector of a waveguide mode measures.
-/
set_option linter.unusedSimpArgs false
namespace Verif.Fdfd
open Matrix
variable {sh : Shape}

/-! ### Specification -/

/-- The mean of a value and of the next or of the previous one along an axis. -/
noncomputable def meanNext (a : Fin 3) (f : Arr sh) : Arr sh := fun c => (f c + f (nextCell a c)) / 2
noncomputable def meanPrev (a : Fin 3) (f : Arr sh) : Arr sh := fun c => (f c + f (prevCell a c)) / 2

/-- Component `a` of `E × H` at the cell `c`, as the electric field of a mode meets the magnetic field of the simulation: the
magnetic field is averaged along the axis of the component of the electric field, and the products along `a`. -/
noncomputable def meetE (d : Dxes) (e h : FieldT sh) (a : Fin 3) (c : Cell sh) : ℂ :=
  meanNext a (fun c =>
    e (a + 1) c * d.e (a + 1) (c (a + 1)) * meanPrev (a + 1) (fun c => d.h (a + 2) (c (a + 2)) * h (a + 2) c) c -
    e (a + 2) c * d.e (a + 2) (c (a + 2)) * meanPrev (a + 2) (fun c => d.h (a + 1) (c (a + 1)) * h (a + 1) c) c) c

/-- Component `a` of `E × H` at the cell `c`, as the electric field of the simulation meets the magnetic field of a mode. -/
noncomputable def meetH (d : Dxes) (e h : FieldT sh) (a : Fin 3) (c : Cell sh) : ℂ :=
  meanPrev (a + 1) (fun c => h (a + 2) c * d.h (a + 2) (c (a + 2)) *
    meanNext a (fun c => d.e (a + 1) (c (a + 1)) * e (a + 1) c) c) c -
  meanPrev (a + 2) (fun c => h (a + 1) c * d.h (a + 1) (c (a + 1)) *
    meanNext a (fun c => d.e (a + 2) (c (a + 2)) * e (a + 2) c) c) c

/-- The magnetic field that belongs to an electric field. -/
noncomputable def magnetic (d : Dxes) (ω : ℂ) (μ : FieldT sh) (e : FieldT sh) : FieldT sh := fun b c =>
  curlEAt d e b c / (-Complex.I * ω * μ b c)

open Classical in
/-- The overlap integral of the electric field `f` with the mode `(e, h)`: `e × H(f) + f × h` through the cells of the slices. -/
noncomputable def modeIntegral (d : Dxes) (ω : ℂ) (μ : FieldT sh) (a : Fin 3) (sl : Slc) (e h f : FieldT sh) : ℂ :=
  ∑ c : Cell sh with InSlc sl c, (meetE d e (magnetic d ω μ f) a c + meetH d f h a c)

/-- The number that an overlap vector gives for an electric field. -/
noncomputable def measured (C : VField sh.size) (f : FieldT sh) : ℂ := ∑ b, ∑ c, C (b, pos c) * f b c

/-! ### Lemmas -/

theorem flat_isVec (f : FieldT sh) : IsVec f (flat f) := fun a c => by rw [flat, cellAt_pos]

theorem shift_zero_prev (a : Fin 3) (v : Fin sh.size → ℂ) (c : Cell sh) :
    (shiftM sh a (-1) 0 *ᵥ v) (pos c) = v (pos (prevCell a c)) := by
  rw [shiftM, cmono_mulVec, move_prev]
  have : leave (sh a) 0 (↑(c a).val + -1) = 1 := by
    unfold leave
    simp
  rw [this, one_mul]

theorem avgf_all : (forAxes fun i => avgf i sh) = some (fun a => (1 / 2 : ℂ) • (1 + shiftM sh a 1 0)) := by
  unfold forAxes avgf
  simp only [rotation_zero, Pi.zero_apply, Option.bind_some, Option.map_some]
  congr 1
  funext a
  match a with
  | 0 => rfl
  | 1 => rfl
  | 2 => rfl

theorem avgb_all : (forAxes fun i => avgb i sh) = some (fun a => (1 / 2 : ℂ) • (1 + shiftM sh a (-1) 0)) := by
  unfold forAxes avgb
  simp only [rotation_zero, Pi.zero_apply, Option.bind_some, Option.map_some]
  congr 1
  funext a
  match a with
  | 0 => rfl
  | 1 => rfl
  | 2 => rfl

theorem avgf_mulVec (a : Fin 3) (v : Fin sh.size → ℂ) (c : Cell sh) :
    (((1 / 2 : ℂ) • (1 + shiftM sh a 1 0)) *ᵥ v) (pos c) = meanNext a (fun c => v (pos c)) c := by
  rw [Matrix.smul_mulVec, Matrix.add_mulVec, Matrix.one_mulVec, Pi.smul_apply, Pi.add_apply, shift_zero_mulVec, meanNext,
    smul_eq_mul]
  ring

theorem avgb_mulVec (a : Fin 3) (v : Fin sh.size → ℂ) (c : Cell sh) :
    (((1 / 2 : ℂ) • (1 + shiftM sh a (-1) 0)) *ᵥ v) (pos c) = meanPrev a (fun c => v (pos c)) c := by
  rw [Matrix.smul_mulVec, Matrix.add_mulVec, Matrix.one_mulVec, Pi.smul_apply, Pi.add_apply, shift_zero_prev, meanPrev,
    smul_eq_mul]
  ring

theorem weighted_mulVec (e : VField sh.size) (dx : Fin 3 → Nat → ℂ) (a : Fin 3) (v : Fin sh.size → ℂ) (c : Cell sh) :
    (weighted sh e dx a *ᵥ v) (pos c) = e (a, pos c) * dx a (c a) * v (pos c) := by
  rw [weighted, Matrix.mulVec_diagonal]
  have h := congrFun (congrFun (diags_mesh' (sh := sh) dx a) (pos c)) (pos c)
  rw [diags, cdiag, Matrix.diagonal_apply_eq, Matrix.diagonal_apply_eq, cellAt_pos] at h
  rw [h]

theorem width_mulVec (dx : Fin 3 → Nat → ℂ) (a : Fin 3) (v : Fin sh.size → ℂ) (c : Cell sh) :
    (diags sh.size (meshFlat sh dx a) *ᵥ v) (pos c) = dx a (c a) * v (pos c) := by
  rw [diags_mesh', cdiag_mulVec]

/-- The operator of `poynting_e_cross`. -/
theorem poynting_e_cross_pointwise (d : Dxes) (e h : FieldT sh) (E H : VField sh.size) (hE : IsVec e E) (hH : IsVec h H) :
    ∃ P, poyntingECross sh E d = some P ∧ IsVec (meetE d e h) (P *ᵥ H) := by
  rw [poyntingECross, avgf_all, avgb_all]
  refine ⟨_, rfl, ?_⟩
  have hX : ∀ (a b q k : Fin 3) (c : Cell sh),
      ((((1 / 2 : ℂ) • (1 + shiftM sh a 1 0)) * weighted sh E d.e b * ((1 / 2 : ℂ) • (1 + shiftM sh b (-1) 0)) *
        diags sh.size (meshFlat sh d.h k)) *ᵥ comp H q) (pos c) =
      meanNext a (fun c => e b c * d.e b (c b) * meanPrev b (fun c => d.h k (c k) * h q c) c) c := by
    intro a b q k c
    rw [← Matrix.mulVec_mulVec, ← Matrix.mulVec_mulVec, ← Matrix.mulVec_mulVec, avgf_mulVec]
    congr 1
    funext c
    rw [weighted_mulVec, hE, avgb_mulVec]
    congr 2
    funext c
    rw [width_mulVec]
    exact congrArg _ (hH q c)
  have hlin : ∀ (a : Fin 3) (f g : Arr sh) (c : Cell sh), meanNext a (fun c => f c - g c) c = meanNext a f c - meanNext a g c :=
    fun a f g c => by simp only [meanNext]; ring
  intro a c
  rw [bmat_mulVec, Fin.sum_univ_three, meetE, hlin]
  match a with
  | 0 =>
    refine Eq.trans (b := ((0 : Mat sh.size) *ᵥ comp H 0) (pos c) + (-(((1 / 2 : ℂ) • (1 + shiftM sh 0 1 0)) *
        weighted sh E d.e 2 * ((1 / 2 : ℂ) • (1 + shiftM sh 2 (-1) 0)) * diags sh.size (meshFlat sh d.h 1)) *ᵥ comp H 1) (pos c) +
      ((((1 / 2 : ℂ) • (1 + shiftM sh 0 1 0)) * weighted sh E d.e 1 * ((1 / 2 : ℂ) • (1 + shiftM sh 1 (-1) 0)) *
        diags sh.size (meshFlat sh d.h 2)) *ᵥ comp H 2) (pos c)) rfl ?_
    rw [Matrix.zero_mulVec, Matrix.neg_mulVec, Pi.neg_apply, hX, hX]
    show (0 : ℂ) + -_ + _ = _ - _
    rw [zero_add, neg_add_eq_sub]; rfl
  | 1 =>
    refine Eq.trans (b := ((((1 / 2 : ℂ) • (1 + shiftM sh 1 1 0)) * weighted sh E d.e 2 * ((1 / 2 : ℂ) •
        (1 + shiftM sh 2 (-1) 0)) * diags sh.size (meshFlat sh d.h 0)) *ᵥ comp H 0) (pos c) + ((0 : Mat sh.size) *ᵥ comp H 1) (pos c) +
      (-(((1 / 2 : ℂ) • (1 + shiftM sh 1 1 0)) * weighted sh E d.e 0 * ((1 / 2 : ℂ) • (1 + shiftM sh 0 (-1) 0)) *
        diags sh.size (meshFlat sh d.h 2)) *ᵥ comp H 2) (pos c)) rfl ?_
    rw [Matrix.zero_mulVec, Matrix.neg_mulVec, Pi.neg_apply, hX, hX]
    show _ + (0 : ℂ) + -_ = _ - _
    rw [add_zero, ← sub_eq_add_neg]; rfl
  | 2 =>
    refine Eq.trans (b := (-(((1 / 2 : ℂ) • (1 + shiftM sh 2 1 0)) * weighted sh E d.e 1 * ((1 / 2 : ℂ) •
        (1 + shiftM sh 1 (-1) 0)) * diags sh.size (meshFlat sh d.h 0)) *ᵥ comp H 0) (pos c) +
      ((((1 / 2 : ℂ) • (1 + shiftM sh 2 1 0)) * weighted sh E d.e 0 * ((1 / 2 : ℂ) • (1 + shiftM sh 0 (-1) 0)) *
        diags sh.size (meshFlat sh d.h 1)) *ᵥ comp H 1) (pos c) + ((0 : Mat sh.size) *ᵥ comp H 2) (pos c)) rfl ?_
    rw [Matrix.zero_mulVec, Matrix.neg_mulVec, Pi.neg_apply, hX, hX]
    show -_ + _ + (0 : ℂ) = _ - _
    rw [add_zero, neg_add_eq_sub]; rfl

/-- The operator of `poynting_h_cross`. -/
theorem poynting_h_cross_pointwise (d : Dxes) (e h : FieldT sh) (E H : VField sh.size) (hE : IsVec e E) (hH : IsVec h H) :
    ∃ P, poyntingHCross sh H d = some P ∧ IsVec (meetH d e h) (-P *ᵥ E) := by
  rw [poyntingHCross, avgf_all, avgb_all]
  refine ⟨_, rfl, ?_⟩
  have hX : ∀ (a b q k : Fin 3) (c : Cell sh),
      ((((1 / 2 : ℂ) • (1 + shiftM sh b (-1) 0)) * weighted sh H d.h q * ((1 / 2 : ℂ) • (1 + shiftM sh a 1 0)) *
        diags sh.size (meshFlat sh d.e k)) *ᵥ comp E k) (pos c) =
      meanPrev b (fun c => h q c * d.h q (c q) * meanNext a (fun c => d.e k (c k) * e k c) c) c := by
    intro a b q k c
    rw [← Matrix.mulVec_mulVec, ← Matrix.mulVec_mulVec, ← Matrix.mulVec_mulVec, avgb_mulVec]
    congr 1
    funext c
    rw [weighted_mulVec, hH, avgf_mulVec]
    congr 2
    funext c
    rw [width_mulVec]
    exact congrArg _ (hE k c)
  intro a c
  rw [Matrix.neg_mulVec, Pi.neg_apply, bmat_mulVec, Fin.sum_univ_three, meetH]
  match a with
  | 0 =>
    refine Eq.trans (b := -(((0 : Mat sh.size) *ᵥ comp E 0) (pos c) + (-(((1 / 2 : ℂ) • (1 + shiftM sh 1 (-1) 0)) *
        weighted sh H d.h 2 * ((1 / 2 : ℂ) • (1 + shiftM sh 0 1 0)) * diags sh.size (meshFlat sh d.e 1)) *ᵥ comp E 1) (pos c) +
      ((((1 / 2 : ℂ) • (1 + shiftM sh 2 (-1) 0)) * weighted sh H d.h 1 * ((1 / 2 : ℂ) • (1 + shiftM sh 0 1 0)) *
        diags sh.size (meshFlat sh d.e 2)) *ᵥ comp E 2) (pos c))) rfl ?_
    rw [Matrix.zero_mulVec, Matrix.neg_mulVec, Pi.neg_apply, hX, hX]
    show -((0 : ℂ) + -_ + _) = _ - _
    rw [zero_add, neg_add_eq_sub, neg_sub]; rfl
  | 1 =>
    refine Eq.trans (b := -(((((1 / 2 : ℂ) • (1 + shiftM sh 0 (-1) 0)) * weighted sh H d.h 2 * ((1 / 2 : ℂ) •
        (1 + shiftM sh 1 1 0)) * diags sh.size (meshFlat sh d.e 0)) *ᵥ comp E 0) (pos c) + ((0 : Mat sh.size) *ᵥ comp E 1) (pos c) +
      (-(((1 / 2 : ℂ) • (1 + shiftM sh 2 (-1) 0)) * weighted sh H d.h 0 * ((1 / 2 : ℂ) • (1 + shiftM sh 1 1 0)) *
        diags sh.size (meshFlat sh d.e 2)) *ᵥ comp E 2) (pos c))) rfl ?_
    rw [Matrix.zero_mulVec, Matrix.neg_mulVec, Pi.neg_apply, hX, hX]
    show -(_ + (0 : ℂ) + -_) = _ - _
    rw [add_zero, ← sub_eq_add_neg, neg_sub]; rfl
  | 2 =>
    refine Eq.trans (b := -((-(((1 / 2 : ℂ) • (1 + shiftM sh 0 (-1) 0)) * weighted sh H d.h 1 * ((1 / 2 : ℂ) •
        (1 + shiftM sh 2 1 0)) * diags sh.size (meshFlat sh d.e 0)) *ᵥ comp E 0) (pos c) +
      ((((1 / 2 : ℂ) • (1 + shiftM sh 1 (-1) 0)) * weighted sh H d.h 0 * ((1 / 2 : ℂ) • (1 + shiftM sh 2 1 0)) *
        diags sh.size (meshFlat sh d.e 1)) *ᵥ comp E 1) (pos c) + ((0 : Mat sh.size) *ᵥ comp E 2) (pos c))) rfl ?_
    rw [Matrix.zero_mulVec, Matrix.neg_mulVec, Pi.neg_apply, hX, hX]
    show -(-_ + _ + (0 : ℂ)) = _ - _
    rw [add_zero, neg_add_eq_sub, neg_sub]; rfl

theorem fwdDiff_zero (d : Dxes) (a : Fin 3) (f : Arr sh) (c : Cell sh) : fwdDiff d.e 0 a f c = dF d a f c := by
  have : upPhase d.e 0 a c = 1 := by simp [upPhase]
  rw [fwdDiff, this, one_mul, dF]

/-- `e2h` with a permeability. -/
theorem e2h_mu (d : Dxes) (ω : ℂ) (mu : Option (FieldT sh)) (f : FieldT sh) (F : VField sh.size) (hF : IsVec f F) :
    ∃ T, e2h sh ω d (mu.map flat) none 0 0 = some T ∧ IsVec (magnetic d ω (mu.getD fun _ _ => 1) f) (T *ᵥ F) := by
  obtain ⟨⟨C, hC⟩, _⟩ := curl_defined sh d 0
  have hc : ∀ a c, (C *ᵥ F) (a, pos c) = curlEAt d f a c := by
    intro a c
    obtain ⟨h0, h1, h2⟩ := curl_e_pointwise d 0 C hC f F hF c
    simp only [fwdDiff_zero] at h0 h1 h2
    match a with
    | 0 => exact h0
    | 1 => exact h1
    | 2 => exact h2
  rw [e2h, hC]
  refine ⟨_, rfl, ?_⟩
  intro a c
  cases mu with
  | none =>
    show (((1 / (-Complex.I * ω)) • C) *ᵥ F) (a, pos c) = _
    rw [Matrix.smul_mulVec, Pi.smul_apply, hc, magnetic, smul_eq_mul]
    simp only [Option.getD_none, mul_one]
    ring
  | some m =>
    show ((Matrix.diagonal (fun p => 1 / flat m p) * ((1 / (-Complex.I * ω)) • C)) *ᵥ F) (a, pos c) = _
    rw [← Matrix.mulVec_mulVec, Matrix.mulVec_diagonal, Matrix.smul_mulVec, Pi.smul_apply, hc, magnetic, smul_eq_mul, flat_isVec]
    simp only [Option.getD_some]
    rw [one_div, one_div, div_eq_mul_inv (curlEAt d f a c), mul_inv (-Complex.I * ω)]
    ring

theorem dot_measured (C : VField sh.size) (f : FieldT sh) : C ⬝ᵥ flat f = measured C f := by
  rw [dotProduct, Fintype.sum_prod_type, measured]
  refine Finset.sum_congr rfl fun b _ => ?_
  rw [sum_pos]
  refine Finset.sum_congr rfl fun c _ => ?_
  rw [flat_isVec]

open Classical in
theorem slice_dot (axis : Fin 3) (sl : Slc) (v : VField sh.size) :
    sliceVec sh axis sl ⬝ᵥ v = ∑ c : Cell sh with InSlc sl c, v (axis, pos c) := by
  rw [dotProduct, Fintype.sum_prod_type, Finset.sum_eq_single axis]
  · rw [sum_pos, Finset.sum_filter]
    refine Finset.sum_congr rfl fun c _ => ?_
    simp only [sliceVec, cellAt_pos, true_and]
    by_cases h : ∀ a, sl.lo a ≤ (c a).val ∧ (c a).val < sl.hi a
    · rw [if_pos h, if_pos (show InSlc sl c from h), one_mul]
    · rw [if_neg h, if_neg (show ¬ InSlc sl c from h), zero_mul]
  · intro b _ hb
    refine Finset.sum_eq_zero fun i _ => ?_
    simp [sliceVec, hb]
  · intro h; exact absurd (Finset.mem_univ _) h

/-- The vector of `compute_overlap_e`. -/
theorem compute_overlap_value (E H : FieldT sh) (β ω : ℂ) (d : Dxes) (a : Fin 3) (p : Int) (sl : Slc) (mu : Option (FieldT sh)) :
    ∃ C, computeOverlapE E H β ω d a p sl (mu.map flat) = some C ∧ ∀ f : FieldT sh,
      measured C f = modeIntegral d ω (mu.getD fun _ _ => 1) a sl (continued a sl (d.e a) (-(p : ℂ) * Complex.I * β) E)
          (continued a sl (d.h a) (-(p : ℂ) * Complex.I * β) H) f /
        (‖modeIntegral d ω (mu.getD fun _ _ => 1) a sl (continued a sl (d.e a) (-(p : ℂ) * Complex.I * β) E)
          (continued a sl (d.h a) (-(p : ℂ) * Complex.I * β) H) (continued a sl (d.e a) (-(p : ℂ) * Complex.I * β) E)‖ : ℝ) := by
  set Ee := continued a sl (d.e a) (-(p : ℂ) * Complex.I * β) E with hEe
  set He := continued a sl (d.h a) (-(p : ℂ) * Complex.I * β) H with hHe
  obtain ⟨T, hT, -⟩ := e2h_mu d ω mu Ee _ (flat_isVec Ee)
  obtain ⟨Q, hQ, -⟩ := poynting_h_cross_pointwise d Ee He _ _ (flat_isVec Ee) (flat_isVec He)
  obtain ⟨P, hP, -⟩ := poynting_e_cross_pointwise d Ee He _ _ (flat_isVec Ee) (flat_isVec He)
  have hval : ∀ f : FieldT sh, (sliceVec sh a sl ᵥ* (-Q + P * T)) ⬝ᵥ flat f =
      modeIntegral d ω (mu.getD fun _ _ => 1) a sl Ee He f := by
    intro f
    obtain ⟨T', hT', h1⟩ := e2h_mu d ω mu f _ (flat_isVec f)
    rw [hT] at hT'; cases hT'
    obtain ⟨Q', hQ', h2⟩ := poynting_h_cross_pointwise d f He _ _ (flat_isVec f) (flat_isVec He)
    rw [hQ] at hQ'; cases hQ'
    obtain ⟨P', hP', h3⟩ := poynting_e_cross_pointwise d Ee _ _ _ (flat_isVec Ee) h1
    rw [hP] at hP'; cases hP'
    rw [← Matrix.dotProduct_mulVec, slice_dot, modeIntegral]
    refine Finset.sum_congr rfl fun c _ => ?_
    rw [Matrix.add_mulVec, Pi.add_apply, h2, ← Matrix.mulVec_mulVec, h3, add_comm]
  refine ⟨fun q => (sliceVec sh a sl ᵥ* (-Q + P * T)) q / (‖(sliceVec sh a sl ᵥ* (-Q + P * T)) ⬝ᵥ flat Ee‖ : ℝ), ?_, ?_⟩
  · unfold computeOverlapE
    simp only [← hEe, ← hHe, hT, hQ, hP, Option.bind_some, Option.map_some]
  · intro f
    rw [hval, ← hval f, ← dot_measured, dotProduct, dotProduct, Finset.sum_div]
    refine Finset.sum_congr rfl fun q _ => ?_
    ring


theorem meetE_scale (d : Dxes) (κ : ℂ) (e h : FieldT sh) (a : Fin 3) (c : Cell sh) :
    meetE d (fun b c => κ * e b c) h a c = κ * meetE d e h a c := by
  simp only [meetE, meanNext]; ring

theorem meetE_scale' (d : Dxes) (κ : ℂ) (e h : FieldT sh) (a : Fin 3) (c : Cell sh) :
    meetE d e (fun b c => κ * h b c) a c = κ * meetE d e h a c := by
  simp only [meetE, meanNext, meanPrev]; ring

theorem meetH_scale (d : Dxes) (κ : ℂ) (e h : FieldT sh) (a : Fin 3) (c : Cell sh) :
    meetH d (fun b c => κ * e b c) h a c = κ * meetH d e h a c := by
  simp only [meetH, meanNext, meanPrev]; ring

theorem meetH_scale' (d : Dxes) (κ : ℂ) (e h : FieldT sh) (a : Fin 3) (c : Cell sh) :
    meetH d e (fun b c => κ * h b c) a c = κ * meetH d e h a c := by
  simp only [meetH, meanNext, meanPrev]; ring

theorem magnetic_scale (d : Dxes) (ω : ℂ) (μ : FieldT sh) (κ : ℂ) (e : FieldT sh) :
    magnetic d ω μ (fun b c => κ * e b c) = fun b c => κ * magnetic d ω μ e b c := by
  funext b c
  simp only [magnetic, curlEAt, dF]; ring

theorem integral_mode_scale (d : Dxes) (ω : ℂ) (μ : FieldT sh) (a : Fin 3) (sl : Slc) (κ : ℂ) (e h f : FieldT sh) :
    modeIntegral d ω μ a sl (fun b c => κ * e b c) (fun b c => κ * h b c) f = κ * modeIntegral d ω μ a sl e h f := by
  rw [modeIntegral, modeIntegral, Finset.mul_sum]
  refine Finset.sum_congr rfl fun c _ => ?_
  rw [meetE_scale, meetH_scale', mul_add]

theorem integral_field_scale (d : Dxes) (ω : ℂ) (μ : FieldT sh) (a : Fin 3) (sl : Slc) (κ : ℂ) (e h f : FieldT sh) :
    modeIntegral d ω μ a sl e h (fun b c => κ * f b c) = κ * modeIntegral d ω μ a sl e h f := by
  rw [modeIntegral, modeIntegral, Finset.mul_sum]
  refine Finset.sum_congr rfl fun c _ => ?_
  rw [magnetic_scale, meetE_scale', meetH_scale, mul_add]

/-! ### The mode on the grid -/

/-- The position of the end of the cell number `n`. -/
noncomputable def position (dx : Nat → ℂ) (n : Nat) : ℝ := ∑ m ∈ Finset.range (n + 1), (dx m).re

/-- The fields of the cross-section for the direction `p`. -/
noncomputable def dirE (p : Int) (E2 : SecField) : SecField := fun k i j => if p < 0 then star (E2 k i j) else E2 k i j
noncomputable def dirH (p : Int) (H2 : SecField) : SecField := fun k i j => if p < 0 then -star (H2 k i j) else H2 k i j

/-- Fields of the cross-section that is cut out by the slices, continued along `a` with the wavenumber `B`; `x` gives the
positions along `a`. -/
noncomputable def modeField (a : Fin 3) (sl : Slc) (x : Nat → ℝ) (B : ℂ) (F : SecField) : FieldT sh := fun b c =>
  if ∀ k, k ≠ a → sl.lo k ≤ (c k).val ∧ (c k).val < sl.hi k then
    F (wgRevOrder a b) ((c (a + 1)).val - sl.lo (a + 1)) ((c (a + 2)).val - sl.lo (a + 2)) *
      Complex.exp (-Complex.I * B * (x (c a) - x (sl.lo a) : ℝ))
  else 0

/-- The electric field of the mode. -/
noncomputable def modeE (d : Dxes) (a : Fin 3) (p : Int) (sl : Slc) (β : ℂ) (E2 : SecField) : FieldT sh :=
  modeField a sl (position (d.e a)) (p * β) (dirE p E2)

/-- The magnetic field of the mode, half a cell further along the guide. -/
noncomputable def modeH (d : Dxes) (a : Fin 3) (p : Int) (sl : Slc) (β : ℂ) (H2 : SecField) : FieldT sh :=
  modeField a sl (position (d.h a)) (p * β) fun k i j =>
    dirH p H2 k i j * Complex.exp (-Complex.I * (p * β) * ((d.e a (sl.lo a) + d.h a (sl.lo a)) / 4))

theorem overlapSlices_plane (sl : Slc) (a : Fin 3) (p : Int) (h1 : sl.hi a = sl.lo a + 1) : overlapSlices sl a p = sl := by
  have e1 : (fun b => if b = a then sl.hi a - 1 else sl.lo b) = sl.lo := by
    funext b
    by_cases h : b = a
    · rw [if_pos h, h, h1]; rfl
    · rw [if_neg h]
  have e2 : (fun b => if b = a then sl.lo a + 1 else sl.hi b) = sl.hi := by
    funext b
    by_cases h : b = a
    · rw [if_pos h, h, h1]
    · rw [if_neg h]
  unfold overlapSlices
  split
  · rw [e1]
  · rw [e2]

theorem cumDx_eq (dx : Nat → ℂ) (n : Nat) : cumDx dx n = (position dx n : ℂ) := by
  rw [cumDx, position, Complex.ofReal_sum]

theorem continued_expand (a : Fin 3) (sl : Slc) (h1 : sl.hi a = sl.lo a + 1) (hin : sl.hi a ≤ sh a) (dx : Nat → ℂ) (B phase : ℂ)
    (F : SecField) : continued a sl dx (-Complex.I * B) (fun k (c : Cell sh) => expandSec a sl F k c / phase) =
      fun b c => 1 / phase * modeField a sl (position dx) B F b c := by
  funext b c
  have hr : ∀ k, (if k = a then sl.lo a else (c k).val) < sh k := by
    intro k
    by_cases h : k = a
    · rw [if_pos h, h]; omega
    · rw [if_neg h]; exact (c k).isLt
  rw [continued, readCell, dif_pos hr, cumDx_eq, cumDx_eq, modeField]
  have o0 : wgOrder a 0 = a + 1 := (order_eq a).1
  have o1 : wgOrder a 1 = a + 2 := (order_eq a).2.1
  have hiff : (∀ k, sl.lo k ≤ (if k = a then sl.lo a else (c k).val) ∧ (if k = a then sl.lo a else (c k).val) < sl.hi k) ↔
      ∀ k, k ≠ a → sl.lo k ≤ (c k).val ∧ (c k).val < sl.hi k := by
    constructor
    · intro h k hk
      have := h k
      rwa [if_neg hk] at this
    · intro h k
      by_cases hk : k = a
      · subst hk; rw [if_pos rfl, h1]; omega
      · rw [if_neg hk]; exact h k hk
  have g0 : (if wgOrder a 0 = a then sl.lo a else (c (wgOrder a 0)).val) - sl.lo (wgOrder a 0) = (c (a + 1)).val - sl.lo (a + 1) := by
    have := congrArg (fun k => (if k = a then sl.lo a else (c k).val) - sl.lo k) o0
    simp only [if_neg (a1_ne a)] at this
    exact this
  have g1 : (if wgOrder a 1 = a then sl.lo a else (c (wgOrder a 1)).val) - sl.lo (wgOrder a 1) = (c (a + 2)).val - sl.lo (a + 2) := by
    have := congrArg (fun k => (if k = a then sl.lo a else (c k).val) - sl.lo k) o1
    simp only [if_neg (a2_ne a)] at this
    exact this
  have hex : expandSec a sl F b (fun k => ⟨if k = a then sl.lo a else (c k).val, hr k⟩ : Cell sh) =
      if ∀ k, k ≠ a → sl.lo k ≤ (c k).val ∧ (c k).val < sl.hi k then
        F (wgRevOrder a b) ((c (a + 1)).val - sl.lo (a + 1)) ((c (a + 2)).val - sl.lo (a + 2)) else 0 := by
    rw [expandSec]
    by_cases h : ∀ k, k ≠ a → sl.lo k ≤ (c k).val ∧ (c k).val < sl.hi k
    · rw [if_pos h, if_pos (hiff.2 h)]
      simp only [g0, g1]
    · rw [if_neg h, if_neg (fun h' => h (hiff.1 h'))]
  rw [hex, Complex.ofReal_sub]
  by_cases h : ∀ k, k ≠ a → sl.lo k ≤ (c k).val ∧ (c k).val < sl.hi k
  · rw [if_pos h, if_pos h]; ring
  · rw [if_neg h, if_neg h]; ring

/-! ### C104 -/

/-- C104: the overlap vector gives the overlap integral of the field with the mode of the given direction, divided by that of the
mode with itself and multiplied by the square root of the power; the phase is that of the normalised mode. -/
theorem overlap_value (ω : ℂ) (d : Dxes) (mu : Option (FieldT sh)) (a : Fin 3) (p : Int) (hp : p = 1 ∨ p = -1) (sl : Slc)
    (h1 : sl.hi a = sl.lo a + 1) (hin : sl.hi a ≤ sh a) (power : ℝ) (phase : ℂ) (hphase : ‖phase‖ = 1) (β : ℂ) (E2 H2 : SecField) :
    ∃ C, buildOverlap ω d mu a p sl power phase β E2 H2 = some C ∧ ∀ f : FieldT sh, measured C f =
      Real.sqrt power / phase * modeIntegral d ω (mu.getD fun _ _ => 1) a sl (modeE d a p sl β E2) (modeH d a p sl β H2) f /
        (‖modeIntegral d ω (mu.getD fun _ _ => 1) a sl (modeE d a p sl β E2) (modeH d a p sl β H2) (modeE d a p sl β E2)‖ : ℝ) := by
  have hB : -(p : ℂ) * Complex.I * β = -Complex.I * (p * β) := by ring
  have hE2 : adjustE p E2 = dirE p E2 := by
    funext k i j
    rw [adjustE, dirE]
    split <;> rfl
  have hH2 : adjustH d a p sl β H2 = fun k i j =>
      dirH p H2 k i j * Complex.exp (-Complex.I * (p * β) * ((d.e a (sl.lo a) + d.h a (sl.lo a)) / 4)) := by
    funext k i j
    have o2 : wgOrder a 2 = a := (order_eq a).2.2
    simp only [adjustH, dirH, o2]
    congr 1
    · split <;> rfl
    · congr 1; ring
  obtain ⟨C, hC, hv⟩ := compute_overlap_value (fun k (c : Cell sh) => expandSec a sl (adjustE p E2) k c / phase)
    (fun k c => expandSec a sl (adjustH d a p sl β H2) k c / phase) β ω d a p sl mu
  refine ⟨fun q => C q * ((Real.sqrt power : ℝ) : ℂ), ?_, ?_⟩
  · unfold buildOverlap
    rw [if_neg (by omega), overlapSlices_plane sl a p h1]
    simp only [hC, Option.map_some]
  · intro f
    have hm : measured (fun q => C q * ((Real.sqrt power : ℝ) : ℂ)) f = Real.sqrt power * measured C f := by
      rw [measured, measured, Finset.mul_sum]
      refine Finset.sum_congr rfl fun b _ => ?_
      rw [Finset.mul_sum]
      refine Finset.sum_congr rfl fun c _ => ?_
      ring
    rw [hm, hv, hB, continued_expand a sl h1 hin, continued_expand a sl h1 hin, integral_mode_scale, integral_mode_scale,
      integral_field_scale, hE2, hH2]
    have hn : ‖1 / phase * (1 / phase * modeIntegral d ω (mu.getD fun _ _ => 1) a sl (modeE d a p sl β E2) (modeH d a p sl β H2)
        (modeE d a p sl β E2))‖ = ‖modeIntegral d ω (mu.getD fun _ _ => 1) a sl (modeE d a p sl β E2) (modeH d a p sl β H2)
        (modeE d a p sl β E2)‖ := by
      rw [norm_mul, norm_mul, norm_div, norm_one, hphase, div_one, one_mul, one_mul]
    show _ * (1 / phase * modeIntegral d ω _ a sl (modeE d a p sl β E2) (modeH d a p sl β H2) f /
      ((‖1 / phase * (1 / phase * modeIntegral d ω _ a sl (modeE d a p sl β E2) (modeH d a p sl β H2) (modeE d a p sl β E2))‖ : ℝ) : ℂ)) = _
    rw [hn]
    ring

/-- C104: other polarities are rejected. -/
theorem overlap_rejects (ω : ℂ) (d : Dxes) (mu : Option (FieldT sh)) (a : Fin 3) (p : Int) (hp : p ≠ 1 ∧ p ≠ -1) (sl : Slc)
    (power : ℝ) (phase β : ℂ) (E2 H2 : SecField) : buildOverlap ω d mu a p sl power phase β E2 H2 = none := by
  rw [buildOverlap, if_pos hp]

/-- C104: the mode itself with the amplitude `A` gives a number of modulus `|A| sqrt(power)`. -/
theorem overlap_own {ω : ℂ} {d : Dxes} {mu : Option (FieldT sh)} {a : Fin 3} {p : Int} (hp : p = 1 ∨ p = -1) {sl : Slc}
    (h1 : sl.hi a = sl.lo a + 1) (hin : sl.hi a ≤ sh a) (power : ℝ) {phase : ℂ} (hphase : ‖phase‖ = 1) {β : ℂ} {E2 H2 : SecField}
    (h0 : modeIntegral d ω (mu.getD fun _ _ => 1) a sl (modeE d a p sl β E2) (modeH d a p sl β H2) (modeE d a p sl β E2) ≠ 0)
    {C : VField sh.size} (hC : buildOverlap ω d mu a p sl power phase β E2 H2 = some C) (A : ℂ) :
    ‖measured C fun b c => A * modeE d a p sl β E2 b c‖ = ‖A‖ * Real.sqrt power := by
  obtain ⟨C', hC', hv⟩ := overlap_value ω d mu a p hp sl h1 hin power phase hphase β E2 H2
  rw [hC] at hC'; cases hC'
  rw [hv, integral_field_scale, norm_div, norm_mul, norm_mul, norm_div, hphase, div_one, Complex.norm_real, Complex.norm_real,
    norm_norm, Real.norm_of_nonneg (Real.sqrt_nonneg _)]
  have := norm_ne_zero_iff.2 h0
  field_simp

/-- C104: the amplitude is measured in units of the mode that is handed over: for a mode that is multiplied by `κ` it is divided by `|κ|`. -/
theorem overlap_rescaled {ω : ℂ} {d : Dxes} {mu : Option (FieldT sh)} {a : Fin 3} {p : Int} (hp : p = 1 ∨ p = -1) {sl : Slc}
    (h1 : sl.hi a = sl.lo a + 1) (hin : sl.hi a ≤ sh a) (power : ℝ) {phase phase' : ℂ} (hphase : ‖phase‖ = 1)
    (hphase' : ‖phase'‖ = 1) {β : ℂ} {E2 H2 : SecField} {C C' : VField sh.size} {κ : ℂ} (hκ : κ ≠ 0)
    (hC : buildOverlap ω d mu a p sl power phase β E2 H2 = some C)
    (hC' : buildOverlap ω d mu a p sl power phase' β (fun k i j => κ * E2 k i j) (fun k i j => κ * H2 k i j) = some C')
    (f : FieldT sh) : ‖measured C' f‖ = ‖measured C f‖ / ‖κ‖ := by
  obtain ⟨C1, hC1, hv⟩ := overlap_value ω d mu a p hp sl h1 hin power phase hphase β E2 H2
  rw [hC] at hC1; cases hC1
  obtain ⟨C2, hC2, hv'⟩ := overlap_value ω d mu a p hp sl h1 hin power phase' hphase' β (fun k i j => κ * E2 k i j)
    (fun k i j => κ * H2 k i j)
  rw [hC'] at hC2; cases hC2
  set κ' := if p < 0 then star κ else κ with hκ'
  have hk : ‖κ'‖ = ‖κ‖ := by
    rw [hκ']
    split
    · rw [norm_star]
    · rfl
  have hk0 : ‖κ‖ ≠ 0 := norm_ne_zero_iff.2 hκ
  have hE : modeE d a p sl β (fun k i j => κ * E2 k i j) = fun b (c : Cell sh) => κ' * modeE d a p sl β E2 b c := by
    funext b c
    simp only [modeE, modeField, dirE, hκ']
    split
    · split
      · rw [star_mul']; ring
      · ring
    · ring
  have hH : modeH d a p sl β (fun k i j => κ * H2 k i j) = fun b (c : Cell sh) => κ' * modeH d a p sl β H2 b c := by
    funext b c
    simp only [modeH, modeField, dirH, hκ']
    split
    · split
      · rw [star_mul']; ring
      · ring
    · ring
  rw [hv, hv', hE, hH, integral_mode_scale, integral_mode_scale, integral_field_scale]
  simp only [norm_div, norm_mul, Complex.norm_real, norm_norm, hphase, hphase', hk]
  generalize ‖modeIntegral d ω _ a sl (modeE d a p sl β E2) (modeH d a p sl β H2) f‖ = X
  generalize ‖modeIntegral d ω _ a sl (modeE d a p sl β E2) (modeH d a p sl β H2) (modeE d a p sl β E2)‖ = Y
  by_cases hY : Y = 0
  · rw [hY]; simp
  · field_simp

/-- The cells in the plane `s` of the axis `a` and in the `k` following planes. -/
def NearPlane (a : Fin 3) (s k : Nat) (c : Cell sh) : Prop := ∃ j, j ≤ k ∧ (c a).val = (s + j) % sh a

theorem near_mono {a : Fin 3} {s k : Nat} {c : Cell sh} (h : NearPlane a s k c) : NearPlane a s (k + 1) c := by
  obtain ⟨j, hj, e⟩ := h
  exact ⟨j, by omega, e⟩

theorem near_next {a : Fin 3} {s k : Nat} {c : Cell sh} (h : NearPlane a s k c) (b : Fin 3) :
    NearPlane a s (k + 1) (nextCell b c) := by
  obtain ⟨j, hj, e⟩ := h
  by_cases hb : a = b
  · refine ⟨j + 1, by omega, ?_⟩
    rw [next_coord, if_pos hb, e, Nat.mod_add_mod, Nat.add_assoc]
  · refine ⟨j, by omega, ?_⟩
    rw [next_coord, if_neg hb, e]

theorem near_prev {a : Fin 3} {s k : Nat} {c : Cell sh} (h : NearPlane a s k c) {b : Fin 3} (hb : b ≠ a) :
    NearPlane a s k (prevCell b c) := by
  obtain ⟨j, hj, e⟩ := h
  exact ⟨j, hj, by rw [prev_coord, if_neg (Ne.symm hb), e]⟩

theorem magnetic_local (d : Dxes) (ω : ℂ) (μ : FieldT sh) {a : Fin 3} {s k : Nat} {f f' : FieldT sh}
    (h : ∀ b c, NearPlane a s (k + 1) c → f b c = f' b c) (b : Fin 3) (c : Cell sh) (hc : NearPlane a s k c) :
    magnetic d ω μ f b c = magnetic d ω μ f' b c := by
  have h0 : ∀ b, f b c = f' b c := fun b => h b c (near_mono hc)
  have h1 : ∀ b k, f b (nextCell k c) = f' b (nextCell k c) := fun b k => h b _ (near_next hc k)
  simp only [magnetic, curlEAt, dF, h0, h1]

open Classical in
/-- C104: only the field in the plane of the overlap and in the two following planes counts. -/
theorem overlap_local {ω : ℂ} {d : Dxes} {mu : Option (FieldT sh)} {a : Fin 3} {p : Int} (hp : p = 1 ∨ p = -1) {sl : Slc}
    (h1 : sl.hi a = sl.lo a + 1) (hin : sl.hi a ≤ sh a) (power : ℝ) {phase : ℂ} (hphase : ‖phase‖ = 1) {β : ℂ} {E2 H2 : SecField}
    {C : VField sh.size} (hC : buildOverlap ω d mu a p sl power phase β E2 H2 = some C) (f f' : FieldT sh)
    (h : ∀ b c, NearPlane a (sl.lo a) 2 c → f b c = f' b c) : measured C f = measured C f' := by
  obtain ⟨C', hC', hv⟩ := overlap_value ω d mu a p hp sl h1 hin power phase hphase β E2 H2
  rw [hC] at hC'; cases hC'
  rw [hv, hv]
  congr 2
  rw [modeIntegral, modeIntegral]
  refine Finset.sum_congr rfl fun c hc => ?_
  have hsl : InSlc sl c := (Finset.mem_filter.1 hc).2
  have hn : NearPlane a (sl.lo a) 0 c := by
    refine ⟨0, le_rfl, ?_⟩
    have := hsl a
    rw [Nat.add_zero, Nat.mod_eq_of_lt (by omega)]
    omega
  have m0 := fun b (c : Cell sh) (hc : NearPlane a (sl.lo a) 1 c) => magnetic_local d ω (mu.getD fun _ _ => 1) h b c hc
  have f0 := fun b (c : Cell sh) (hc : NearPlane a (sl.lo a) 1 c) => h b c (near_mono hc)
  have n0 := near_mono hn
  have n1 := near_next hn a
  have p1 := near_prev n0 (a1_ne a)
  have p2 := near_prev n0 (a2_ne a)
  have q1 := near_prev n1 (a1_ne a)
  have q2 := near_prev n1 (a2_ne a)
  have r1 := near_next (near_prev hn (a1_ne a)) a
  have r2 := near_next (near_prev hn (a2_ne a)) a
  congr 1
  · simp only [meetE, meanNext, meanPrev, m0 _ _ n0, m0 _ _ n1, m0 _ _ p1, m0 _ _ p2, m0 _ _ q1, m0 _ _ q2]
  · simp only [meetH, meanNext, meanPrev, f0 _ _ n0, f0 _ _ n1, f0 _ _ p1, f0 _ _ p2, f0 _ _ r1, f0 _ _ r2]

/-- Two fields that are multiplied by the same number from plane to plane agree if they agree in one plane. -/
theorem travel_unique {a : Fin 3} {s : Nat} (hlt : s < sh a) {q : ℂ} (hq : q ≠ 0) {f g : FieldT sh}
    (hf : ∀ b c, (c a).val + 1 < sh a → f b (nextCell a c) = q * f b c)
    (hg : ∀ b c, (c a).val + 1 < sh a → g b (nextCell a c) = q * g b c)
    (h0 : ∀ b c, (c a).val = s → f b c = g b c) : f = g := by
  have up : ∀ n b c, (c a).val = s + n → f b c = g b c := by
    intro n
    induction n with
    | zero => exact fun b c hc => h0 b c hc
    | succ n ih =>
      intro b c hc
      have hlt := (c a).isLt
      have hpc : (prevCell a c a).val = s + n := by
        rw [prev_coord, if_pos rfl, hc, show s + (n + 1) + (sh a - 1) = s + n + sh a by omega, Nat.add_mod_right,
          Nat.mod_eq_of_lt (by omega)]
      have e := face_next_prev a c
      rw [← e, hf b _ (by omega), hg b _ (by omega), ih b _ hpc]
  have down : ∀ n b c, (c a).val + n = s → f b c = g b c := by
    intro n
    induction n with
    | zero => exact fun b c hc => h0 b c hc
    | succ n ih =>
      intro b c hc
      have hl : (c a).val + 1 < sh a := by omega
      have hnc : (nextCell a c a).val + n = s := by
        rw [next_coord, if_pos rfl, Nat.mod_eq_of_lt hl]; omega
      have := ih b _ hnc
      rw [hf b c hl, hg b c hl] at this
      exact mul_left_cancel₀ hq this
  funext b c
  by_cases h : s ≤ (c a).val
  · exact up ((c a).val - s) b c (by omega)
  · exact down (s - (c a).val) b c (by omega)

/-- C104: a wave of amplitude `A` that runs along the guide with the wavenumber that was handed over and with the mode's electric
field across the guide is measured with its amplitude, times the square root of the power, if the electric field of the mode has no
component along the guide. What is missing: the code continues that component, which sits half a cell further, without the phase of
half a cell; the wavenumber that the code uses by default is not the one of the discretised guide; and a wave in the other direction
is not ignored (`overlap_backward_false`). -/
theorem overlap_travelling_partial {ω : ℂ} {d : Dxes} {mu : Option (FieldT sh)} {a : Fin 3} {p : Int} (hp : p = 1 ∨ p = -1)
    {w : ℝ} (hde : ∀ n, n < sh a → d.e a n = w) {sl : Slc} {s : Nat} (hs : PlaneSlc sh a s sl) (hlt : s < sh a) (power : ℝ)
    {phase : ℂ} (hphase : ‖phase‖ = 1) {β : ℂ} {E2 H2 : SecField} (hz : ∀ i j, E2 2 i j = 0)
    (h0 : modeIntegral d ω (mu.getD fun _ _ => 1) a sl (modeE d a p sl β E2) (modeH d a p sl β H2) (modeE d a p sl β E2) ≠ 0)
    {C : VField sh.size} (hC : buildOverlap ω d mu a p sl power phase β E2 H2 = some C) (A : ℂ) (f : FieldT sh)
    (hf : ∀ b c, (c a).val + 1 < sh a → f b (nextCell a c) = Complex.exp (-Complex.I * p * β * w) * f b c)
    (hplane : ∀ c : Cell sh, (c a).val = s →
      f (a + 1) c = A * (if p < 0 then star (E2 0 (c (a + 1)) (c (a + 2))) else E2 0 (c (a + 1)) (c (a + 2))) ∧
      f (a + 2) c = A * (if p < 0 then star (E2 1 (c (a + 1)) (c (a + 2))) else E2 1 (c (a + 1)) (c (a + 2))) ∧ f a c = 0) :
    ‖measured C f‖ = ‖A‖ * Real.sqrt power := by
  have hcut : ∀ c : Cell sh, ∀ k, k ≠ a → sl.lo k ≤ (c k).val ∧ (c k).val < sl.hi k := by
    intro c k hk
    rw [(hs.2.2 k hk).1, (hs.2.2 k hk).2]
    exact ⟨Nat.zero_le _, (c k).isLt⟩
  have hm : ∀ b (c : Cell sh), modeE d a p sl β E2 b c = dirE p E2 (wgRevOrder a b) (c (a + 1)) (c (a + 2)) *
      Complex.exp (-Complex.I * (p * β) * ((position (d.e a) (c a) - position (d.e a) s : ℝ) : ℂ)) := by
    intro b c
    rw [modeE, modeField, if_pos (hcut c), (hs.2.2 _ (a1_ne a)).1, (hs.2.2 _ (a2_ne a)).1, hs.1, Nat.sub_zero, Nat.sub_zero]
  have e : f = fun b c => A * modeE d a p sl β E2 b c := by
    refine travel_unique hlt (Complex.exp_ne_zero _) hf ?_ ?_
    · intro b c hc
      have hpos : position (d.e a) ((c a).val + 1) = position (d.e a) (c a).val + w := by
        rw [position, position, Finset.sum_range_succ _ ((c a).val + 1), hde _ hc, Complex.ofReal_re]
      simp only [hm, next_coord, if_neg (a1_ne a), if_neg (a2_ne a), if_true, Nat.mod_eq_of_lt hc, hpos]
      rw [show -Complex.I * (p * β) * ((position (d.e a) (c a).val + w - position (d.e a) s : ℝ) : ℂ) = -Complex.I * p * β * w +
        -Complex.I * (p * β) * ((position (d.e a) (c a).val - position (d.e a) s : ℝ) : ℂ) by push_cast; ring, Complex.exp_add]
      ring
    · intro b c hc
      obtain ⟨r0, r1, r2⟩ := rev_eq a
      obtain ⟨e1, e2, e3⟩ := hplane c hc
      have hx : Complex.exp (-Complex.I * (p * β) * ((position (d.e a) (c a) - position (d.e a) s : ℝ) : ℂ)) = 1 := by
        rw [hc, sub_self, Complex.ofReal_zero, mul_zero, Complex.exp_zero]
      show f b c = A * modeE d a p sl β E2 b c
      rw [hm, hx, mul_one]
      revert b
      refine forall_cyc a ?_ ?_ ?_
      · rw [e3, r2, dirE, hz]; simp
      · rw [e1, r0]; rfl
      · rw [e2, r1]; rfl
  rw [e]
  exact overlap_own hp (by rw [hs.1, hs.2.1]) (by rw [hs.2.1]; omega) power hphase h0 hC A

/-! ### The plane wave -/

theorem position_one (n : Nat) : position (fun _ => 1) n = n + 1 := by
  simp [position]

theorem plane_modeE (n : Fin 5) (b : Fin 3) (B : ℝ) : modeE dx1 2 1 sl5 B planeE b (pl n) =
    if b = 0 then Complex.exp (-Complex.I * B * ((n.val : ℝ) - 2 : ℝ)) else 0 := by
  have hcut : ∀ k, k ≠ (2 : Fin 3) → sl5.lo k ≤ (pl n k).val ∧ (pl n k).val < sl5.hi k := by
    intro k hk
    fin_cases k
    · exact ⟨Nat.le_refl _, Nat.one_pos⟩
    · exact ⟨Nat.le_refl _, Nat.one_pos⟩
    · exact absurd rfl hk
  have hd : dx1.e 2 = fun _ => 1 := rfl
  have hlo : sl5.lo 2 = 2 := rfl
  have hpn : (pl n 2).val = n.val := rfl
  rw [modeE, modeField, if_pos hcut, hd, position_one, position_one, hlo, hpn]
  rw [show (((n.val : ℝ) + 1 - ((2 : ℕ) + 1) : ℝ)) = (n.val : ℝ) - 2 by push_cast; ring]
  have hr : wgRevOrder 2 b = b := by revert b; decide
  rw [hr]
  by_cases hb : b = 0
  · simp [dirE, planeE, hb]
  · simp [dirE, planeE, hb]

theorem plane_modeH (n : Fin 5) (b : Fin 3) (B : ℝ) : modeH dx1 2 1 sl5 B planeH b (pl n) =
    if b = 1 then Complex.exp (-Complex.I * B * ((n.val : ℝ) - 3 / 2 : ℝ)) else 0 := by
  have hcut : ∀ k, k ≠ (2 : Fin 3) → sl5.lo k ≤ (pl n k).val ∧ (pl n k).val < sl5.hi k := by
    intro k hk
    fin_cases k
    · exact ⟨Nat.le_refl _, Nat.one_pos⟩
    · exact ⟨Nat.le_refl _, Nat.one_pos⟩
    · exact absurd rfl hk
  have hd : dx1.h 2 = fun _ => 1 := rfl
  have hd' : dx1.e 2 = fun _ => 1 := rfl
  have hlo : sl5.lo 2 = 2 := rfl
  have hpn : (pl n 2).val = n.val := rfl
  rw [modeH, modeField, if_pos hcut, hd, hd', position_one, position_one, hlo, hpn]
  have hx : Complex.exp (-Complex.I * (((1 : ℤ) : ℂ) * B) * ((1 + 1) / 4)) *
      Complex.exp (-Complex.I * (((1 : ℤ) : ℂ) * B) * (((n.val : ℝ) + 1 - ((2 : ℕ) + 1) : ℝ) : ℂ)) =
      Complex.exp (-Complex.I * B * ((n.val : ℝ) - 3 / 2 : ℝ)) := by
    rw [← Complex.exp_add]
    congr 1
    push_cast; ring
  have hr : wgRevOrder 2 b = b := by revert b; decide
  rw [hr, mul_assoc, hx]
  by_cases hb : b = 1
  · simp [dirH, planeH, hb]
  · simp [dirH, planeH, hb]

/-- The overlap integral of the plane wave with a field along the first axis. -/
theorem plane_integral (B : ℝ) (f : FieldT sh5) (h1 : ∀ n, f 1 (pl n) = 0) :
    modeIntegral dx1 1 (fun _ _ => 1) 2 sl5 (modeE dx1 2 1 sl5 B planeE) (modeH dx1 2 1 sl5 B planeH) f =
      ((f 0 (pl 3) - f 0 (pl 2)) + Complex.exp (-Complex.I * B) * (f 0 (pl 4) - f 0 (pl 3))) / 2 * Complex.I +
      Complex.exp (-Complex.I * B / 2) * (f 0 (pl 2) + f 0 (pl 3)) / 2 := by
  classical
  have hn0 : ∀ c : Cell sh5, nextCell 0 c = c := fun c => by
    funext b; fin_cases b
    · exact Subsingleton.elim (α := Fin 1) _ _
    · rfl
    · rfl
  have hn1 : ∀ c : Cell sh5, nextCell 1 c = c := fun c => by
    funext b; fin_cases b
    · rfl
    · exact Subsingleton.elim (α := Fin 1) _ _
    · rfl
  have hp0 : ∀ c : Cell sh5, prevCell 0 c = c := fun c => by
    funext b; fin_cases b
    · exact Subsingleton.elim (α := Fin 1) _ _
    · rfl
    · rfl
  have hp1 : ∀ c : Cell sh5, prevCell 1 c = c := fun c => by
    funext b; fin_cases b
    · rfl
    · exact Subsingleton.elim (α := Fin 1) _ _
    · rfl
  have hn2 : nextCell 2 (pl 2) = pl 3 ∧ nextCell 2 (pl 3) = pl 4 := by
    refine ⟨?_, ?_⟩ <;> (funext b; fin_cases b <;> rfl)
  have hin : ∀ c : Cell sh5, InSlc sl5 c ↔ c = pl 2 := by
    intro c
    constructor
    · intro h
      funext b
      fin_cases b
      · exact Subsingleton.elim (α := Fin 1) _ _
      · exact Subsingleton.elim (α := Fin 1) _ _
      · have h2 := h 2
        have : sl5.lo 2 = 2 := rfl
        have : sl5.hi 2 = 3 := rfl
        apply Fin.ext
        show (c 2).val = 2
        omega
    · rintro rfl b
      fin_cases b <;> decide
  have hsum : (Finset.univ.filter fun c : Cell sh5 => InSlc sl5 c) = {pl 2} := by
    ext c
    simp [hin]
  have hcE : ∀ (c : Cell sh5), magnetic dx1 1 (fun _ _ => 1) f 1 c = (f 0 (nextCell 2 c) - f 0 c) * Complex.I := by
    intro c
    have : magnetic dx1 1 (fun _ _ => 1) f 1 c =
      ((f 0 (nextCell 2 c) - f 0 c) / 1 - (f 2 (nextCell 0 c) - f 2 c) / 1) / (-Complex.I * 1 * 1) := rfl
    rw [this, hn0]
    field_simp
    rw [Complex.I_sq]; ring
  have e : ∀ (F G : FieldT sh5), meetE dx1 F G 2 (pl 2) = ((F 0 (pl 2) * 1 * ((1 * G 1 (pl 2) + 1 * G 1 (pl 2)) / 2) -
      F 1 (pl 2) * 1 * ((1 * G 0 (pl 2) + 1 * G 0 (pl 2)) / 2)) + (F 0 (pl 3) * 1 * ((1 * G 1 (pl 3) + 1 * G 1 (pl 3)) / 2) -
      F 1 (pl 3) * 1 * ((1 * G 0 (pl 3) + 1 * G 0 (pl 3)) / 2))) / 2 := by
    intro F G
    have := hp0 (pl 2)
    have : meetE dx1 F G 2 (pl 2) = ((F 0 (pl 2) * 1 * ((1 * G 1 (pl 2) + 1 * G 1 (prevCell 0 (pl 2))) / 2) -
      F 1 (pl 2) * 1 * ((1 * G 0 (pl 2) + 1 * G 0 (prevCell 1 (pl 2))) / 2)) + (F 0 (nextCell 2 (pl 2)) * 1 *
      ((1 * G 1 (nextCell 2 (pl 2)) + 1 * G 1 (prevCell 0 (nextCell 2 (pl 2)))) / 2) -
      F 1 (nextCell 2 (pl 2)) * 1 * ((1 * G 0 (nextCell 2 (pl 2)) + 1 * G 0 (prevCell 1 (nextCell 2 (pl 2)))) / 2))) / 2 := rfl
    rw [this, hn2.1, hp0, hp0, hp1, hp1]
  have e' : ∀ (F G : FieldT sh5), meetH dx1 F G 2 (pl 2) = G 1 (pl 2) * ((F 0 (pl 2) + F 0 (pl 3)) / 2) -
      G 0 (pl 2) * ((F 1 (pl 2) + F 1 (pl 3)) / 2) := by
    intro F G
    have : meetH dx1 F G 2 (pl 2) = (G 1 (pl 2) * 1 * ((1 * F 0 (pl 2) + 1 * F 0 (nextCell 2 (pl 2))) / 2) +
        G 1 (prevCell 0 (pl 2)) * 1 * ((1 * F 0 (prevCell 0 (pl 2)) + 1 * F 0 (nextCell 2 (prevCell 0 (pl 2)))) / 2)) / 2 -
      (G 0 (pl 2) * 1 * ((1 * F 1 (pl 2) + 1 * F 1 (nextCell 2 (pl 2))) / 2) +
        G 0 (prevCell 1 (pl 2)) * 1 * ((1 * F 1 (prevCell 1 (pl 2)) + 1 * F 1 (nextCell 2 (prevCell 1 (pl 2)))) / 2)) / 2 := rfl
    rw [this, hp0, hp1, hn2.1]
    ring
  rw [modeIntegral]
  have hs2 : (∑ c : Cell sh5 with InSlc sl5 c, (meetE dx1 (modeE dx1 2 1 sl5 B planeE) (magnetic dx1 1 (fun _ _ => 1) f) 2 c +
      meetH dx1 f (modeH dx1 2 1 sl5 B planeH) 2 c)) = meetE dx1 (modeE dx1 2 1 sl5 B planeE) (magnetic dx1 1 (fun _ _ => 1) f) 2 (pl 2) +
      meetH dx1 f (modeH dx1 2 1 sl5 B planeH) 2 (pl 2) := by
    rw [hsum, Finset.sum_singleton]
  refine Eq.trans ?_ (hs2.trans ?_)
  · congr 1
  · rw [e, e', hcE, hcE, hn2.1, hn2.2, h1, h1]
    simp only [plane_modeE, plane_modeH]
    have v2 : ((2 : Fin 5).val : ℝ) = 2 := by norm_num
    have v3 : ((3 : Fin 5).val : ℝ) = 3 := by norm_num
    rw [v2, v3]
    have c1 : Complex.exp (-Complex.I * B * ((2 - 2 : ℝ) : ℂ)) = 1 := by simp
    have c2 : Complex.exp (-Complex.I * B * ((3 - 2 : ℝ) : ℂ)) = Complex.exp (-Complex.I * B) := by congr 1; push_cast; ring
    have c3 : Complex.exp (-Complex.I * B * ((2 - 3 / 2 : ℝ) : ℂ)) = Complex.exp (-Complex.I * B / 2) := by
      congr 1; push_cast; ring
    rw [c1, c2, c3]
    simp
    ring

theorem exp_third (x : ℂ) (hx : x = -Complex.I * ((Real.pi / 3 : ℝ) : ℂ)) :
    Complex.exp x = 1 / 2 - (Real.sqrt 3 : ℝ) / 2 * Complex.I := by
  rw [hx, show -Complex.I * ((Real.pi / 3 : ℝ) : ℂ) = ((-(Real.pi / 3) : ℝ) : ℂ) * Complex.I by push_cast; ring, Complex.exp_mul_I,
    ← Complex.ofReal_cos, ← Complex.ofReal_sin, Real.cos_neg, Real.sin_neg, Real.cos_pi_div_three, Real.sin_pi_div_three]
  push_cast; ring

theorem exp_third' (x : ℂ) (hx : x = Complex.I * ((Real.pi / 3 : ℝ) : ℂ)) :
    Complex.exp x = 1 / 2 + (Real.sqrt 3 : ℝ) / 2 * Complex.I := by
  rw [hx, show Complex.I * ((Real.pi / 3 : ℝ) : ℂ) = ((Real.pi / 3 : ℝ) : ℂ) * Complex.I by push_cast; ring, Complex.exp_mul_I,
    ← Complex.ofReal_cos, ← Complex.ofReal_sin, Real.cos_pi_div_three, Real.sin_pi_div_three]
  push_cast; ring

theorem exp_sixth (x : ℂ) (hx : x = -Complex.I * ((Real.pi / 3 : ℝ) : ℂ) / 2) :
    Complex.exp x = (Real.sqrt 3 : ℝ) / 2 - 1 / 2 * Complex.I := by
  rw [hx, show -Complex.I * ((Real.pi / 3 : ℝ) : ℂ) / 2 = ((-(Real.pi / 6) : ℝ) : ℂ) * Complex.I by push_cast; ring,
    Complex.exp_mul_I, ← Complex.ofReal_cos, ← Complex.ofReal_sin, Real.cos_neg, Real.sin_neg, Real.cos_pi_div_six,
    Real.sin_pi_div_six]
  push_cast; ring

theorem sqrt3_sq : ((Real.sqrt 3 : ℝ) : ℂ) ^ 2 = 3 := by
  rw [← Complex.ofReal_pow, Real.sq_sqrt (by norm_num)]; norm_num

theorem plane_forward : modeIntegral (sh := sh5) dx1 1 (fun _ _ => 1) 2 sl5 (modeE dx1 2 1 sl5 ((Real.pi / 3 : ℝ) : ℂ) planeE)
    (modeH dx1 2 1 sl5 ((Real.pi / 3 : ℝ) : ℂ) planeH) (modeE dx1 2 1 sl5 ((Real.pi / 3 : ℝ) : ℂ) planeE) =
    (Real.sqrt 3 : ℝ) / 4 - 5 / 4 * Complex.I := by
  have v : ((2 : Fin 5).val : ℝ) = 2 ∧ ((3 : Fin 5).val : ℝ) = 3 ∧ ((4 : Fin 5).val : ℝ) = 4 := by norm_num
  have f2 : modeE dx1 2 1 sl5 ((Real.pi / 3 : ℝ) : ℂ) planeE 0 (pl 2) = 1 := by
    rw [plane_modeE, if_pos rfl, v.1]; simp
  have f3 : modeE dx1 2 1 sl5 ((Real.pi / 3 : ℝ) : ℂ) planeE 0 (pl 3) = 1 / 2 - (Real.sqrt 3 : ℝ) / 2 * Complex.I := by
    rw [plane_modeE, if_pos rfl, v.2.1]; exact exp_third _ (by push_cast; ring)
  have f4 : modeE dx1 2 1 sl5 ((Real.pi / 3 : ℝ) : ℂ) planeE 0 (pl 4) = (1 / 2 - (Real.sqrt 3 : ℝ) / 2 * Complex.I) ^ 2 := by
    rw [plane_modeE, if_pos rfl, v.2.2, ← exp_third _ rfl, ← Complex.exp_nat_mul]
    congr 1; push_cast; ring
  rw [plane_integral _ _ (fun n => by rw [plane_modeE]; rfl), f2, f3, f4, exp_third _ rfl, exp_sixth _ rfl]
  have h3 := sqrt3_sq
  have hI := Complex.I_sq
  generalize ((Real.sqrt 3 : ℝ) : ℂ) = t at *
  generalize Complex.I = z at *
  have hq2 : (1 / 2 - t / 2 * z) ^ 2 = -1 / 2 - t * z / 2 := by linear_combination (t ^ 2 / 4) * hI - (1 / 4) * h3
  rw [hq2]
  linear_combination -(z / 8) * h3 + (t / 8) * hI

theorem plane_back (n : Fin 5) : extE 2 2 (-((Real.pi / 3 : ℝ) : ℂ)) 1 planeE 0 (pl n) =
    Complex.exp (Complex.I * ((Real.pi / 3 : ℝ) : ℂ) * ((n.val : ℂ) - 2)) := by
  have hr : wgRevOrder 2 0 = 0 := by decide
  rw [extE, hr, if_neg (by decide), guidePhase]
  have : (pl n 2).val = n.val := rfl
  rw [this]
  simp only [planeE, if_true, one_mul]
  congr 1; push_cast; ring

/-- The hypotheses of the theorems above are met: the plane wave with `ω = 1` in the direction of the third axis on the unit grid.
The overlap vector exists and measures the amplitude of the travelling wave. -/
example : ∃ C, buildOverlap 1 dx1 none 2 1 sl5 4 1 ((Real.pi / 3 : ℝ) : ℂ) planeE planeH = some C ∧
    ∀ A : ℂ, ‖measured (sh := sh5) C (fun b c => A * extE 2 2 ((Real.pi / 3 : ℝ) : ℂ) 1 planeE b c)‖ = ‖A‖ * 2 := by
  obtain ⟨C, hC, -⟩ := overlap_value (sh := sh5) 1 dx1 none 2 1 (Or.inl rfl) sl5 rfl (by decide) 4 1 norm_one
    ((Real.pi / 3 : ℝ) : ℂ) planeE planeH
  refine ⟨C, hC, fun A => ?_⟩
  have h2 : Real.sqrt 4 = 2 := by rw [show (4 : ℝ) = 2 ^ 2 by norm_num]; exact Real.sqrt_sq (by norm_num)
  rw [← h2]
  refine overlap_travelling_partial (sh := sh5) (w := 1) (Or.inl rfl) (fun _ _ => by simp [dx1]) sl5_plane (by decide) 4 norm_one
    (fun _ _ => rfl) ?_ hC A _ ?_ ?_
  · refine ne_of_eq_of_ne plane_forward ?_
    intro h
    have := congrArg Complex.im h
    simp at this
  · intro b c hc
    rw [(ext_next 2 _ 1 planeE b c hc).1]
    push_cast
    rw [show -Complex.I * 1 * ((Real.pi : ℂ) / 3) * 1 = -Complex.I * ((Real.pi : ℂ) / 3) * 1 by ring]
    ring
  · intro c hc
    have hr : wgRevOrder 2 0 = 0 ∧ wgRevOrder 2 1 = 1 ∧ wgRevOrder 2 2 = 2 := by decide
    refine ⟨?_, ?_, ?_⟩
    · show A * extE 2 2 _ 1 planeE 0 c = _
      rw [extE, hr.1, hc]; simp [planeE, guidePhase]
    · show A * extE 2 2 _ 1 planeE 1 c = _
      rw [extE, hr.2.1]; simp [planeE]
    · show A * extE 2 2 _ 1 planeE 2 c = _
      rw [extE, hr.2.2]; simp [planeE]

/-- C104 fails for the wave in the other direction: the overlap vector of the plane wave that runs forward on the unit grid does not
ignore the plane wave that runs backward, although the guide is lossless and invariant, the wavenumber is that of the discretised
guide and the mode has no component along the guide. -/
theorem overlap_backward_false : ¬ ∀ (sh : Shape) (d : Dxes) (a : Fin 3) (sl : Slc) (s : Nat), PlaneSlc sh a s sl → s < sh a →
    (∀ b n, d.e b n = 1 ∧ d.h b n = 1) → ∀ (ω β0 β : ℝ), 0 < ω → 0 < β0 → 0 < β → 2 * Real.sin (β / 2) = β0 → ∀ ε : FieldT sh,
    Invariant a ε → (∀ b c, star (ε b c) = ε b c) → ∀ E2 H2 : SecField, (∀ i j, E2 2 i j = 0 ∧ H2 2 i j = 0) →
    IsMode (n0 := sh (a + 1)) (n1 := sh (a + 2)) (secDx d a sl) ω β0 (fun k i j => secOf ε a sl k i j)
      (fun k i j => secOf (fun _ _ => 1 : FieldT sh) a sl k i j) (fun k i j => E2 k i j) (fun k i j => H2 k i j) →
    ∀ C, buildOverlap ω d none a 1 sl 1 1 β E2 H2 = some C → ∀ F G : FieldT sh, SourceFree d a ω ε (fun _ _ => 1) F G →
    (∀ b c, (c a).val + 1 < sh a → F b (nextCell a c) = Complex.exp (Complex.I * β) * F b c ∧
      G b (nextCell a c) = Complex.exp (Complex.I * β) * G b c) → measured C F = 0 := by
  intro hall
  have hsin : 2 * Real.sin (Real.pi / 3 / 2) = 1 := by
    rw [show Real.pi / 3 / 2 = Real.pi / 6 by ring, Real.sin_pi_div_six]; norm_num
  have hsinC : 2 * ((Real.sin (Real.pi / 3 / 2) : ℝ) : ℂ) = 1 := by exact_mod_cast congrArg (fun x : ℝ => (x : ℂ)) hsin
  obtain ⟨C, hC, hv⟩ := overlap_value (sh := sh5) 1 dx1 none 2 1 (Or.inl rfl) sl5 rfl (by decide) 1 1 norm_one
    ((Real.pi / 3 : ℝ) : ℂ) planeE planeH
  have hback : IsMode (n0 := sh5 (2 + 1)) (n1 := sh5 (2 + 2)) (secDx dx1 2 sl5) 1 (-1)
      (fun k i j => secOf (fun _ _ => 1 : FieldT sh5) 2 sl5 k i j) (fun k i j => secOf (fun _ _ => 1 : FieldT sh5) 2 sl5 k i j)
      (fun k i j => planeE k i j) (fun k i j => (fun k i j => -planeH k i j : SecField) k i j) := by
    simp only [secOf_one]
    constructor <;> intro i j <;> simp [dFwd0, dFwd1, dBack0, dBack1, planeE, planeH]
  have hSF := ext_sourceFree (sh := sh5) (d := dx1) (a := 2) (w := 1) one_ne_zero (fun _ _ => rfl) (fun _ _ => rfl) sl5_plane
    (by decide) (B := -((Real.pi / 3 : ℝ) : ℂ)) (B0 := -1) (by
      rw [mul_one, mul_one, show -((Real.pi / 3 : ℝ) : ℂ) / 2 = ((-(Real.pi / 3 / 2) : ℝ) : ℂ) by push_cast; ring,
        ← Complex.ofReal_sin, Real.sin_neg]
      push_cast at hsinC ⊢; linear_combination -hsinC) (const_invariant 2) (const_invariant 2)
    (E2 := planeE) (H2 := fun k i j => -planeH k i j) hback
  have h0 := hall sh5 dx1 2 sl5 2 sl5_plane (by decide) (fun _ _ => ⟨rfl, rfl⟩) 1 1 (Real.pi / 3) one_pos one_pos
    (by positivity) hsin (fun _ _ => 1) (const_invariant 2) (fun _ _ => star_one _) planeE planeH (fun _ _ => ⟨rfl, rfl⟩)
    (by push_cast; exact plane_mode) C (by push_cast at hC ⊢; exact hC) _ _ (by push_cast; exact hSF) (by
      intro b c hc
      obtain ⟨e1, -⟩ := ext_next (a := 2) 2 (-((Real.pi / 3 : ℝ) : ℂ)) 1 planeE b c hc
      obtain ⟨-, e2⟩ := ext_next (a := 2) 2 (-((Real.pi / 3 : ℝ) : ℂ)) 1 (fun k i j => -planeH k i j : SecField) b c hc
      have hx : -Complex.I * -((Real.pi / 3 : ℝ) : ℂ) * 1 = Complex.I * ((Real.pi / 3 : ℝ) : ℂ) := by ring
      rw [hx] at e1 e2
      exact ⟨e1, e2⟩)
  rw [hv] at h0
  have hfwd := plane_forward
  have hfn : ‖modeIntegral (sh := sh5) dx1 1 (fun _ _ => 1) 2 sl5 (modeE dx1 2 1 sl5 ((Real.pi / 3 : ℝ) : ℂ) planeE)
    (modeH dx1 2 1 sl5 ((Real.pi / 3 : ℝ) : ℂ) planeH) (modeE dx1 2 1 sl5 ((Real.pi / 3 : ℝ) : ℂ) planeE)‖ ≠ 0 := by
    rw [norm_ne_zero_iff, hfwd]
    intro h
    have := congrArg Complex.im h
    simp at this
  have hI : modeIntegral (sh := sh5) dx1 1 (fun _ _ => 1) 2 sl5 (modeE dx1 2 1 sl5 ((Real.pi / 3 : ℝ) : ℂ) planeE)
    (modeH dx1 2 1 sl5 ((Real.pi / 3 : ℝ) : ℂ) planeH) (extE 2 2 (-((Real.pi / 3 : ℝ) : ℂ)) 1 planeE) = 0 := by
    have hd : ((none : Option (FieldT sh5)).getD fun _ _ => 1) = fun _ _ => 1 := rfl
    rw [hd] at h0
    rcases div_eq_zero_iff.1 h0 with h | h
    · rcases mul_eq_zero.1 h with h' | h'
      · simp at h'
      · exact h'
    · exact absurd (Complex.ofReal_eq_zero.1 h) hfn
  rw [plane_integral _ _ (fun n => by simp [extE, planeE, show wgRevOrder 2 1 = 1 by decide]), plane_back, plane_back, plane_back,
    exp_third _ rfl, exp_sixth _ rfl] at hI
  have w2 : ((2 : Fin 5).val : ℂ) = 2 ∧ ((3 : Fin 5).val : ℂ) = 3 ∧ ((4 : Fin 5).val : ℂ) = 4 := by norm_num
  rw [w2.1, w2.2.1, w2.2.2] at hI
  have b2 : Complex.exp (Complex.I * ((Real.pi / 3 : ℝ) : ℂ) * (2 - 2)) = 1 := by simp
  have b3 : Complex.exp (Complex.I * ((Real.pi / 3 : ℝ) : ℂ) * (3 - 2)) = 1 / 2 + (Real.sqrt 3 : ℝ) / 2 * Complex.I :=
    exp_third' _ (by ring)
  have b4 : Complex.exp (Complex.I * ((Real.pi / 3 : ℝ) : ℂ) * (4 - 2)) = (1 / 2 + (Real.sqrt 3 : ℝ) / 2 * Complex.I) ^ 2 := by
    rw [← exp_third' _ rfl, ← Complex.exp_nat_mul]
    congr 1; push_cast; ring
  rw [b2, b3, b4] at hI
  have h3 := sqrt3_sq
  have hi := Complex.I_sq
  have : Complex.I = 0 := by
    generalize ((Real.sqrt 3 : ℝ) : ℂ) = t at *
    generalize Complex.I = z at *
    have hq2 : (1 / 2 + t / 2 * z) ^ 2 = -1 / 2 + t * z / 2 := by linear_combination (t ^ 2 / 4) * hi - (1 / 4) * h3
    rw [hq2] at hI
    linear_combination (-2) * hI + (3 * t / 4) * hi + (z / 4) * h3
  exact Complex.I_ne_zero this

end Verif.Fdfd
