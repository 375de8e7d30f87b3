import Verif.Fdfd.Transmission
import Verif.Fdfd.WaveguideOverlapProps
import Verif.Fdfd.PoyntingProps
/-
Property C133: what `compute_transmission` measures.
-/
namespace Verif.Fdfd
open Matrix
variable {sh : Shape}

/-- **C133.** For a plane the result is the magnitude of the overlap integral of the electric field with the pair of fields; for
slices that are not one cell wide along the axis there is an error. -/
theorem transmission_is_overlap (E H : FieldT sh) (a : Fin 3) (ω : ℂ) (d : Dxes) (sl : Slc) (mu : Option (FieldT sh)) :
    computeTransmission E H a ω d sl (mu.map flat) =
      if sl.hi a = sl.lo a + 1 then some ‖modeIntegral d ω (mu.getD fun _ _ => 1) a sl E H E‖ else none := by
  by_cases h1 : sl.hi a = sl.lo a + 1
  · rw [computeTransmission, if_neg (by omega), if_pos h1]
    obtain ⟨T, hT, h1⟩ := e2h_mu d ω mu E _ (flat_isVec E)
    obtain ⟨Q, hQ, h2⟩ := poynting_h_cross_pointwise d E H _ _ (flat_isVec E) (flat_isVec H)
    obtain ⟨P, hP, h3⟩ := poynting_e_cross_pointwise d E _ _ _ (flat_isVec E) h1
    rw [hT, hQ, hP]
    simp only [Option.bind_some, Option.map_some]
    congr 2
    rw [← Matrix.dotProduct_mulVec, slice_dot, modeIntegral]
    refine Finset.sum_congr rfl fun c _ => ?_
    rw [Matrix.add_mulVec, Pi.add_apply, h2, ← Matrix.mulVec_mulVec, h3, add_comm]
  · rw [computeTransmission, if_pos (by omega), if_neg h1]

/-- **C133.** The result is quadratic in the fields and does not depend on their common phase. -/
theorem transmission_quadratic (E H : FieldT sh) (a : Fin 3) (ω : ℂ) (d : Dxes) (sl : Slc) (mu : Option (FieldT sh)) (κ : ℂ) :
    computeTransmission (fun b c => κ * E b c) (fun b c => κ * H b c) a ω d sl (mu.map flat) =
      (computeTransmission E H a ω d sl (mu.map flat)).map fun t => ‖κ‖ ^ 2 * t := by
  rw [transmission_is_overlap, transmission_is_overlap]
  split
  · rw [integral_mode_scale, integral_field_scale, norm_mul, norm_mul, Option.map_some]
    congr 1
    ring
  · rfl

open Classical in
/-- **C133.** Of the magnetic field only the values at the cells of the plane, and at those before them across the axis, count. -/
theorem transmission_magnetic (E H H' : FieldT sh) (a : Fin 3) (ω : ℂ) (d : Dxes) (sl : Slc) (mu : Option (FieldT sh))
    (h : ∀ b c, InSlc sl c → H b c = H' b c ∧ H b (prevCell (a + 1) c) = H' b (prevCell (a + 1) c) ∧
      H b (prevCell (a + 2) c) = H' b (prevCell (a + 2) c)) :
    computeTransmission E H a ω d sl (mu.map flat) = computeTransmission E H' a ω d sl (mu.map flat) := by
  rw [transmission_is_overlap, transmission_is_overlap]
  split
  · congr 2
    rw [modeIntegral, modeIntegral]
    refine Finset.sum_congr rfl fun c hc => ?_
    have hc : InSlc sl c := (Finset.mem_filter.mp hc).2
    simp only [meetH, meanPrev, (h _ c hc).1, (h _ c hc).2.1, (h _ c hc).2.2]
  · rfl

/-- Three cells along the third axis, the first of them is the plane. -/
def sh3 : Shape := ![1, 1, 3]
def sl3 : Slc := ⟨![0, 0, 0], ![1, 1, 1]⟩

/-- A real electric field along the first axis. -/
noncomputable def standE : FieldT sh3 := fun b c => if b = 0 then (if (c 2).val = 0 then 1 else 2) else 0

/-- The magnetic field that belongs to it with `ω = 1`. -/
noncomputable def standH : FieldT sh3 := fun b c =>
  if b = 1 then (if (c 2).val = 0 then Complex.I else if (c 2).val = 1 then 0 else -Complex.I) else 0

theorem inv_negI : (-Complex.I)⁻¹ = Complex.I := by rw [inv_neg, Complex.inv_I, neg_neg]

theorem standH_magnetic : magnetic dx1 1 (fun _ _ => 1) standE = standH := by
  funext b c
  have hv : (c 2).val < 3 := (c 2).isLt
  have h2 : ((nextCell 2 c) 2).val = ((c 2).val + 1) % 3 := rfl
  have h1 : (nextCell 1 c) 2 = c 2 := by simp [nextCell]
  have h0 : (nextCell 0 c) 2 = c 2 := by simp [nextCell]
  rw [magnetic]
  fin_cases b
  · simp [curlEAt, dF, standE, standH, dx1]
  · have e1 : ((1 : Fin 3) + 1) = 2 := rfl
    have e2 : ((1 : Fin 3) + 2) = 0 := rfl
    have h20 : ¬ (2 : Fin 3) = 0 := by decide
    simp only [curlEAt, dF, standE, standH, dx1, Fin.mk_one, e1, e2, h2]
    generalize (c 2).val = n at *
    have : n = 0 ∨ n = 1 ∨ n = 2 := by omega
    rcases this with rfl | rfl | rfl <;> norm_num [div_eq_mul_inv, inv_negI, h20]
  · have e1 : ((2 : Fin 3) + 1) = 0 := rfl
    have e2 : ((2 : Fin 3) + 2) = 1 := rfl
    simp [curlEAt, dF, standE, standH, dx1, e1, e2, h1]

open Classical in
theorem stand_value : computeTransmission standE standH 2 1 dx1 sl3 none = some 2 := by
  have := transmission_is_overlap standE standH 2 1 dx1 sl3 none
  rw [Option.map_none] at this
  rw [this, if_pos (show sl3.hi 2 = sl3.lo 2 + 1 from rfl), modeIntegral, Option.getD_none, standH_magnetic]
  congr 1
  have hall : ∀ c : Cell sh3, InSlc sl3 c → meetE dx1 standE standH 2 c + meetH dx1 standE standH 2 c = 2 * Complex.I := by
    intro c hc
    have e1 : ((2 : Fin 3) + 1) = 0 := rfl
    have e2 : ((2 : Fin 3) + 2) = 1 := rfl
    have hv : (c 2).val = 0 := by have := (hc 2).2; simp [sl3] at this; omega
    have h2 : ∀ c : Cell sh3, ((nextCell 2 c) 2).val = ((c 2).val + 1) % 3 := fun _ => rfl
    have p0 : ∀ c : Cell sh3, (prevCell 0 c) 2 = c 2 := fun c => by simp [prevCell]
    simp only [meetE, meetH, meanNext, meanPrev, dx1, standE, standH, e1, e2, h2, p0, hv]
    norm_num
    ring
  have hf : ∀ c : Cell sh3, InSlc sl3 c ↔ c = fun b => match b with | 0 => (0 : Fin 1) | 1 => (0 : Fin 1) | 2 => (0 : Fin 3) := by
    intro c
    constructor
    · intro hc
      funext b
      have h0 := (c 0).isLt
      have h1 := (c 1).isLt
      have h2 := (hc 2).2
      simp [sl3, sh3] at h0 h1 h2
      fin_cases b
      · exact Fin.ext (by simpa using h0)
      · exact Fin.ext (by simpa using h1)
      · exact Fin.ext (by simpa using h2)
    · rintro rfl b
      fin_cases b <;> exact ⟨Nat.zero_le _, Nat.one_pos⟩
  rw [Finset.sum_congr rfl (fun c hc => hall c (Finset.mem_filter.mp hc).2), Finset.sum_const,
    Finset.filter_congr (fun c _ => hf c), Finset.filter_eq', if_pos (Finset.mem_univ _), Finset.card_singleton, one_smul]
  simp

/-- The hypothesis of `transmission_magnetic` is met by a magnetic field that is changed in the last of the three cells. -/
example : computeTransmission standE (fun b c => if (c 2).val = 2 then 7 else standH b c) 2 1 dx1 sl3 none = some 2 := by
  rw [← stand_value]
  refine transmission_magnetic standE _ _ 2 1 dx1 sl3 none fun b c hc => ?_
  have e1 : ((2 : Fin 3) + 1) = 0 := rfl
  have e2 : ((2 : Fin 3) + 2) = 1 := rfl
  have hv : (c 2).val = 0 := by have := (hc 2).2; simp [sl3] at this; omega
  have p0 : (prevCell 0 c) 2 = c 2 := by simp [prevCell]
  have p1 : (prevCell 1 c) 2 = c 2 := by simp [prevCell]
  simp [e1, e2, hv, p0, p1]

theorem stand_flux (c : Cell sh3) : (flux dx1 standE (fun b c => star (standH b c)) 2 c).re = 0 := by
  have e1 : ((2 : Fin 3) + 1) = 0 := rfl
  have e2 : ((2 : Fin 3) + 2) = 1 := rfl
  have hE : ∀ c : Cell sh3, standE 1 c = 0 := fun c => by simp [standE]
  have hr : ∀ c : Cell sh3, (standE 0 c).im = 0 := fun c => by simp only [standE]; split_ifs <;> simp
  have hi : ∀ c : Cell sh3, (standH 1 c).re = 0 := fun c => by simp only [standH]; split_ifs <;> simp
  rw [flux, e1, e2, hE, zero_mul, sub_zero]
  have hf : faceArea dx1 2 c = 1 := by simp [faceArea, dx1]
  rw [hf, one_mul, Complex.mul_re, hr, zero_mul, sub_zero, Complex.star_def, Complex.conj_re, hi, mul_zero]

/-- **C133, violated.** The transmission is not zero when no power passes the plane: nothing is conjugated, so that the electric field
of a standing wave counts in full with the magnetic field that belongs to it. -/
theorem transmission_power_false : ¬ ∀ (sh : Shape) (E : FieldT sh) (a : Fin 3) (ω : ℂ) (d : Dxes) (sl : Slc),
    (∀ c, (flux d E (fun b c => star (magnetic d ω (fun _ _ => 1) E b c)) a c).re = 0) →
    sl.hi a = sl.lo a + 1 → computeTransmission E (magnetic d ω (fun _ _ => 1) E) a ω d sl none = some 0 := by
  intro h
  have := h sh3 standE 2 1 dx1 sl3 (by rw [standH_magnetic]; exact stand_flux) (show sl3.hi 2 = sl3.lo 2 + 1 from rfl)
  rw [standH_magnetic, stand_value] at this
  norm_num at this

end Verif.Fdfd
