import Verif.Fdfd.FreeSpaceMask
import Verif.Fdfd.PlanePowerProps
import Mathlib.Analysis.SpecialFunctions.Trigonometric.Bounds
/-
Property C94 (third part): the power and the currents of a source.
-/
namespace Verif.Fdfd.FreeSpace
open Matrix
variable {sh : Shape}
set_option linter.unusedVariables false
set_option linter.unusedSimpArgs false

/-! ### The power -/

open Classical in
/-- C94: what is used to normalise is the magnitude of the flux of `E × H*` through the plane. -/
theorem transmission_value (d : Dxes) (axis : Fin 3) (sl : Slc) (E H : FieldT sh) (h1 : sl.hi axis - sl.lo axis = 1) :
    transmissionChew d axis sl E H =
      some ‖∑ c : Cell sh with InSlices sl c, flux d E (fun a c => star (H a c)) axis c‖ := by
  obtain ⟨X, hX⟩ := chewE_exists d (vecF E)
  rw [transmissionChew, if_neg (by omega), hX, Option.map_some]
  congr 2
  have hp := chew_e_pointwise d E (fun a c => star (H a c)) (vecF E) (fun q => star (vecF H q)) (vecF_isVec E)
    (fun a c => congrArg star (vecF_isVec H a c)) X hX
  rw [Fintype.sum_prod_type, Finset.sum_eq_single axis]
  · rw [Finset.sum_filter, ← Equiv.sum_comp (cellEquiv sh)]
    apply Finset.sum_congr rfl
    intro c _
    rw [cellEquiv_apply, if_pos rfl, cellAt_pos, hp]
    by_cases h : InSlices sl c
    · rw [if_pos h, if_pos h, one_mul, one_mul]
    · rw [if_neg h, if_neg h, mul_zero, zero_mul]
  · intro a _ ha
    exact Finset.sum_eq_zero fun i _ => by rw [if_neg ha, zero_mul, zero_mul]
  · intro h; exact absurd (Finset.mem_univ _) h

theorem flux_scale (d : Dxes) (E H : FieldT sh) (s : ℝ) (a : Fin 3) (c : Cell sh) :
    flux d (fun a c => (s : ℂ) * E a c) (fun a c => star ((s : ℂ) * H a c)) a c =
      ((s ^ 2 : ℝ) : ℂ) * flux d E (fun a c => star (H a c)) a c := by
  simp only [flux, star_mul', Complex.star_def, Complex.conj_ofReal]
  push_cast
  ring

theorem transmission_scale (d : Dxes) (axis : Fin 3) (sl : Slc) (E H : FieldT sh) (s : ℝ) :
    transmissionChew d axis sl (fun a c => (s : ℂ) * E a c) (fun a c => (s : ℂ) * H a c) =
      (transmissionChew d axis sl E H).map fun P => s ^ 2 * P := by
  by_cases h : sl.hi axis - sl.lo axis = 1
  · rw [transmission_value _ _ _ _ _ h, transmission_value _ _ _ _ _ h, Option.map_some]
    simp only [flux_scale]
    rw [← Finset.mul_sum, norm_mul, Complex.norm_real, Real.norm_of_nonneg (by positivity)]
  · simp only [transmissionChew, if_pos h, Option.map_none]

theorem fields_common (g : EpsGrid sh) (mu : Option (FieldT sh)) (omega : ℝ) (axis : Fin 3) (sl : Slc)
    (f : (Fin 3 → ℝ) → Matrix (Fin 3) (Fin 3) ℝ → ℂ) (m : Aim) : ∃ (E H : FieldT sh) (w : Fin 3 → ℝ), ∀ power,
      vectorFields g mu omega axis sl f m power =
        some ⟨fun a c => (Real.sqrt power : ℂ) * E a c, fun a c => (Real.sqrt power : ℂ) * H a c, w⟩ := by
  obtain ⟨fl, hfl⟩ := vectorFields_exists g mu omega axis sl f m 1
  rw [vectorFields, Option.map_eq_some_iff] at hfl
  obtain ⟨H, hH, _⟩ := hfl
  exact ⟨_, _, _, fun power => by rw [vectorFields, hH, Option.map_some]⟩

theorem scaled_away (p T : ℝ) (hp : 0 < p) (z : ℂ) :
    (Real.sqrt p : ℂ) * z / (Real.sqrt |p * T| : ℂ) = z / (Real.sqrt |T| : ℂ) := by
  have h : Real.sqrt p ≠ 0 := (Real.sqrt_pos.2 hp).ne'
  rw [abs_mul, abs_of_pos hp, Real.sqrt_mul hp.le, Complex.ofReal_mul]
  exact mul_div_mul_left _ _ (Complex.ofReal_ne_zero.2 h)

theorem planeFields_power (g : EpsGrid sh) (omega : ℝ) (axis : Fin 3) (sl : Slc) (mu : Option (FieldT sh)) (m : Aim)
    (border : Fin 3 → Nat) (power : ℝ) (hp : 0 < power) :
    planeFields g omega axis sl mu m border power = planeFields g omega axis sl mu m border 1 := by
  obtain ⟨E, H, w, h⟩ := fields_common g mu omega axis sl (planeScalar omega m.polarity (epsVal g sl)) m
  simp only [planeFields, h, Option.bind_some]
  cases hb : checkBorder sl axis border with
  | none => simp only [Option.bind_none]
  | some b' =>
    simp only [Option.bind_some, transmission_scale]
    cases ht : transmissionChew g.d axis (shrink sl b') E H with
    | none => simp only [Option.map_none]
    | some T =>
      simp only [Option.map_some, Real.sq_sqrt hp.le, Real.sq_sqrt (zero_le_one' ℝ), scaled_away power T hp,
        scaled_away 1 T one_pos]

/-- C94, false as documented ("power transmitted through the slice"): the power that is asked for has no effect on the source. -/
theorem plane_power_ignored_false (g : EpsGrid sh) (omega : ℝ) (axis : Fin 3) (sl : Slc) (mu : Option (FieldT sh)) (m : Aim)
    (border : Fin 3 → Nat) (power power' : ℝ) (hp : 0 < power) (hp' : 0 < power') :
    planeWaveSource g omega axis sl mu m border power = planeWaveSource g omega axis sl mu m border power' := by
  rw [planeWaveSource, planeWaveSource, planeFields_power _ _ _ _ _ _ _ _ hp, planeFields_power _ _ _ _ _ _ _ _ hp']

theorem next_other (axis : Fin 3) (c : Cell sh) (b : Fin 3) (h : b ≠ axis) : nextCell axis c b = c b := by
  rw [nextCell, if_neg h]

/-- C94: after the normalisation the flux of `E × H*` through the plane, without the border, has the magnitude one, if it was not
zero before. -/
theorem plane_power (g : EpsGrid sh) (omega : ℝ) (axis : Fin 3) (sl : Slc) (mu : Option (FieldT sh)) (m : Aim)
    (border b' : Fin 3 → Nat) (power : ℝ) (fl0 fl : Fields sh) (P : ℝ)
    (h0 : vectorFields g mu omega axis sl (planeScalar omega m.polarity (epsVal g sl)) m power = some fl0)
    (hb : checkBorder sl axis border = some b')
    (hP : transmissionChew g.d axis (shrink sl b') fl0.E fl0.H = some P) (hP0 : P ≠ 0)
    (h : planeFields g omega axis sl mu m border power = some fl) :
    transmissionChew g.d axis (shrink sl b') fl.E fl.H = some 1 := by
  classical
  rw [planeFields, h0, Option.bind_some, hb, Option.bind_some, hP, Option.map_some, Option.some.injEq] at h
  subst h
  have h1 : (shrink sl b').hi axis - (shrink sl b').lo axis = 1 := by
    by_contra hne
    rw [transmissionChew, if_pos hne] at hP
    exact absurd hP (by simp)
  rw [transmission_value _ _ _ _ _ h1, Option.some.injEq] at hP
  have hPp : 0 < P := lt_of_le_of_ne (hP ▸ norm_nonneg _) (Ne.symm hP0)
  rw [transmission_value _ _ _ _ _ h1]
  have key : ∀ c ∈ Finset.univ.filter (fun c : Cell sh => InSlices (shrink sl b') c),
      flux g.d (fun a c => (makeMask sl axis b' c : ℂ) * (fl0.E a c / (Real.sqrt |P| : ℂ)))
        (fun a c => star ((makeMask sl axis b' c : ℂ) * (fl0.H a c / (Real.sqrt |P| : ℂ)))) axis c =
      ((P⁻¹ : ℝ) : ℂ) * flux g.d fl0.E (fun a c => star (fl0.H a c)) axis c := by
    intro c hc
    have hc' := (Finset.mem_filter.1 hc).2
    have m1 : makeMask sl axis b' c = 1 := mask_inside sl axis b' c fun b hb => hc' b
    have m2 : makeMask sl axis b' (nextCell axis c) = 1 := mask_inside sl axis b' _ fun b hb => by
      rw [next_other axis c b hb]; exact hc' b
    have hs : (Real.sqrt P : ℂ) * (Real.sqrt P : ℂ) = (P : ℂ) := by
      rw [← Complex.ofReal_mul, Real.mul_self_sqrt hPp.le]
    have hsq : (Real.sqrt P : ℂ) ≠ 0 := Complex.ofReal_ne_zero.2 (Real.sqrt_pos.2 hPp).ne'
    simp only [flux, m1, m2, Complex.ofReal_one, one_mul, abs_of_pos hPp, star_div₀, Complex.star_def, Complex.conj_ofReal]
    rw [Complex.ofReal_inv, ← hs]
    field_simp
  rw [Finset.sum_congr rfl key, ← Finset.mul_sum, norm_mul, hP, Complex.norm_real, Real.norm_of_nonneg (inv_nonneg.2 hPp.le),
    inv_mul_cancel₀ hP0]

/-! ### A column of two cells -/

theorem epsVal_const (g : EpsGrid sh) (sl : Slc) (e : ℂ) (h : ∀ c, InSlices sl c → g.eps 0 c = e) (hne : ∃ c : Cell sh, InSlices sl c) :
    epsVal g sl = e.re := by
  classical
  rw [epsVal, Finset.sum_congr rfl (fun c hc => h c (Finset.mem_filter.1 hc).2), Finset.sum_const, nsmul_eq_mul]
  have : ((Finset.univ.filter fun c : Cell sh => InSlices sl c).card : ℂ) ≠ 0 := by
    obtain ⟨c, hc⟩ := hne
    exact Nat.cast_ne_zero.2 (Finset.card_ne_zero.2 ⟨c, Finset.mem_filter.2 ⟨Finset.mem_univ _, hc⟩⟩)
  rw [mul_div_cancel_left₀ _ this]

/-- Two cells of width one above each other, in vacuum. -/
noncomputable def column : EpsGrid ![1, 1, 2] := ⟨fun _ _ i => i, ⟨fun _ _ => 1, fun _ _ => 1⟩, fun _ _ => 1⟩
/-- The lower cell. -/
def lower : Slc := ⟨![0, 0, 0], ![1, 1, 1]⟩
def ahead : Aim := ⟨1, 0, 0, 0⟩

def cell0 : Cell ![1, 1, 2] := fun b => match b with | 0 => (0 : Fin 1) | 1 => (0 : Fin 1) | 2 => (0 : Fin 2)

theorem column_eps : epsVal column lower = 1 := by
  rw [epsVal_const column lower 1 (fun _ _ => rfl) ⟨cell0, fun a => ?_⟩]
  · rfl
  · fin_cases a <;> exact ⟨Nat.zero_le _, by decide⟩

theorem ahead_valid : ahead.Valid := Or.inl rfl

theorem column_power (power : ℝ) (hp : 0 < power) (fl : Fields ![1, 1, 2])
    (h : vectorFields column none Real.pi 2 lower (planeScalar Real.pi ahead.polarity (epsVal column lower)) ahead power = some fl) :
    ∃ P, P ≠ 0 ∧ transmissionChew column.d 2 (shrink lower 0) fl.E fl.H = some P := by
  classical
  obtain ⟨hw, hE⟩ := plane_wave_field column none Real.pi 2 lower ahead power ahead_valid Real.pi_pos
    (by rw [column_eps]; norm_num) fl h
  have hcases := heading_cases 2 ahead ahead_valid
  have hhead : heading 2 ahead = unitVec 2 := by rw [hcases.2.1 rfl]; exact one_smul _ _
  have hpol : polarization 2 ahead = unitVec 0 := hcases.2.2.1 rfl rfl
  rw [column_eps, Real.sqrt_one, mul_one, hhead] at hw
  have hsum : ∀ a (c : Cell ![1, 1, 2]), ∑ b, fl.wavevector b * column.xyz a b (c b).val = Real.pi * ((c 2).val : ℝ) := by
    intro a c
    rw [hw, Fin.sum_univ_three]
    simp [unitVec, column]
  simp only [hsum, hpol] at hE
  have hE0 : ∀ c, fl.E 0 c = (Real.sqrt power : ℂ) * Complex.exp (-Complex.I * ((Real.pi * ((c 2).val : ℝ) : ℝ) : ℂ)) := fun c => by
    rw [hE]; simp [unitVec]
  have hE1 : ∀ c, fl.E 1 c = 0 := fun c => by rw [hE]; simp [unitVec]
  have hE2 : ∀ c, fl.E 2 c = 0 := fun c => by rw [hE]; simp [unitVec]
  have hn : (nextCell 2 cell0 2).val = 1 := rfl
  have hexp : Complex.exp (-Complex.I * ((Real.pi * ((1 : ℕ) : ℝ) : ℝ) : ℂ)) = -1 := by
    rw [Nat.cast_one, mul_one, neg_mul, mul_comm, Complex.exp_neg, Complex.exp_pi_mul_I]; norm_num
  have hEn : fl.E 0 (nextCell 2 cell0) = -(Real.sqrt power : ℂ) := by rw [hE0, hn, hexp]; ring
  have hEc : fl.E 0 cell0 = (Real.sqrt power : ℂ) := by rw [hE0]; simp [cell0]
  have hF := faraday column none Real.pi 2 lower _ ahead power Real.pi_ne_zero (fun _ _ => one_ne_zero) fl h 1 cell0
  have hz : fwdDiff column.d.e (fun b => (fl.wavevector b : ℂ)) (1 + 2) (fl.E (1 + 1)) cell0 = 0 := by
    show fwdDiff _ _ 0 (fl.E 2) cell0 = 0
    rw [fwdDiff, hE2, hE2]; simp
  have hd : fwdDiff column.d.e (fun b => (fl.wavevector b : ℂ)) (1 + 1) (fl.E (1 + 2)) cell0 = -2 * (Real.sqrt power : ℂ) := by
    show fwdDiff _ _ 2 (fl.E 0) cell0 = _
    have : upPhase column.d.e (fun b => (fl.wavevector b : ℂ)) 2 cell0 = 1 := by
      rw [upPhase, if_neg]; decide
    rw [fwdDiff, hEn, hEc, this]
    show (1 * -(Real.sqrt power : ℂ) - Real.sqrt power) / 1 = _
    ring
  rw [hd, hz, sub_zero, permeability, mul_one] at hF
  have hs : (Real.sqrt power : ℂ) ≠ 0 := Complex.ofReal_ne_zero.2 (Real.sqrt_pos.2 hp).ne'
  have hH : fl.H 1 cell0 ≠ 0 := by
    intro h0
    rw [h0, mul_zero] at hF
    exact mul_ne_zero (by norm_num) hs hF
  have hall : ∀ c : Cell ![1, 1, 2], InSlices (shrink lower 0) c ↔ c = cell0 := by
    intro c
    constructor
    · intro hc
      have h2 : (c 2).val < 1 := (hc 2).2
      funext b
      apply Fin.ext
      match b with
      | 0 => have := (c 0).isLt; change (c 0).val < 1 at this; show (c 0).val = 0; omega
      | 1 => have := (c 1).isLt; change (c 1).val < 1 at this; show (c 1).val = 0; omega
      | 2 => show (c 2).val = 0; omega
    · rintro rfl a
      fin_cases a <;> exact ⟨by decide, by decide⟩
  refine ⟨_, ?_, transmission_value _ _ _ _ _ (by decide)⟩
  have hfil : (Finset.univ.filter fun c : Cell ![1, 1, 2] => InSlices (shrink lower 0) c) = {cell0} := by
    ext c; simp [hall]
  rw [hfil, Finset.sum_singleton]
  have hfl : flux column.d fl.E (fun a c => star (fl.H a c)) 2 cell0 =
      faceArea column.d 2 cell0 * (fl.E 0 (nextCell 2 cell0) * star (fl.H 1 cell0) - fl.E 1 (nextCell 2 cell0) * star (fl.H 0 cell0)) := rfl
  rw [hfl, hE1, zero_mul, sub_zero, hEn]
  have hfa : faceArea column.d 2 cell0 = 1 := by simp [faceArea, column]
  rw [hfa, one_mul]
  exact norm_ne_zero_iff.2 (mul_ne_zero (neg_ne_zero.2 hs) (star_ne_zero.2 hH))

/-- C94, false as documented: a source of power two transmits the power one through its plane. -/
theorem plane_power_two_false : ∃ fl : Fields ![1, 1, 2],
    planeFields column Real.pi 2 lower none ahead 0 2 = some fl ∧ transmissionChew column.d 2 lower fl.E fl.H = some 1 := by
  obtain ⟨fl0, h0⟩ := vectorFields_exists column none Real.pi 2 lower (planeScalar Real.pi ahead.polarity (epsVal column lower)) ahead 2
  obtain ⟨P, hP0, hP⟩ := column_power 2 (by norm_num) fl0 h0
  have hb : checkBorder lower 2 0 = some 0 := by
    have : (fun b : Fin 3 => if 2 * Function.update (0 : Fin 3 → Nat) 2 0 b < Slc.size lower b
        then Function.update (0 : Fin 3 → Nat) 2 0 b else 0) = 0 := by decide
    rw [checkBorder, if_pos (by decide), this]
  have hex : ∃ fl, planeFields column Real.pi 2 lower none ahead 0 2 = some fl := by
    rw [planeFields, h0, Option.bind_some, hb, Option.bind_some, hP, Option.map_some]
    exact ⟨_, rfl⟩
  obtain ⟨fl, hfl⟩ := hex
  exact ⟨fl, hfl, plane_power column Real.pi 2 lower none ahead 0 0 2 fl0 fl P h0 hb hP hP0 hfl⟩

end Verif.Fdfd.FreeSpace
