import Verif.Fdfd.FreeSpace
import Verif.Fdfd.CurlProps
import Verif.Fdfd.PoyntingProps
import Verif.Fdfd.SymmProps
import Mathlib.LinearAlgebra.CrossProduct
import Mathlib.Tactic.LinearCombination
/-
Property C94 (first part): the directions and the fields of plane waves.
-/
namespace Verif.Fdfd.FreeSpace
open Matrix
variable {sh : Shape}
set_option linter.unusedVariables false
set_option linter.unusedSimpArgs false

/-! ### Specification -/

/-- `w` turned about the unit vector `v` by the angle `t`, counterclockwise seen against `v`. -/
noncomputable def turn (v : Fin 3 → ℝ) (t : ℝ) (w : Fin 3 → ℝ) : Fin 3 → ℝ :=
  Real.cos t • w + Real.sin t • (v ⨯₃ w) + ((1 - Real.cos t) * (v ⬝ᵥ w)) • v

/-- The unit vector along an axis. -/
def unitVec (a : Fin 3) : Fin 3 → ℝ := fun b => if b = a then 1 else 0

/-- Where a wave travels to: the axis, turned by `theta` about the default polarization, the axis after it, and then by `psi`
about the axis. -/
noncomputable def heading (axis : Fin 3) (m : Aim) : Fin 3 → ℝ :=
  turn (m.polarity • unitVec axis) m.psi (turn (unitVec (axis + 1)) m.theta (m.polarity • unitVec axis))

/-- The polarization: the default one, turned by `psi` about the axis and by the polarization angle about the heading. -/
noncomputable def polarization (axis : Fin 3) (m : Aim) : Fin 3 → ℝ :=
  turn (heading axis m) m.pol (turn (m.polarity • unitVec axis) m.psi (unitVec (axis + 1)))

/-- Forward or backward. -/
def Aim.Valid (m : Aim) : Prop := m.polarity = 1 ∨ m.polarity = -1

/-! ### Rotations -/

theorem dot3 (v w : Fin 3 → ℝ) : v ⬝ᵥ w = v 0 * w 0 + v 1 * w 1 + v 2 * w 2 := by
  rw [dotProduct, Fin.sum_univ_three]

theorem turn_apply (v w : Fin 3 → ℝ) (t : ℝ) (a : Fin 3) : turn v t w a =
    Real.cos t * w a + Real.sin t * (v (a + 1) * w (a + 2) - v (a + 2) * w (a + 1)) +
      (1 - Real.cos t) * (v 0 * w 0 + v 1 * w 1 + v 2 * w 2) * v a := by
  simp only [turn, dot3, cross_apply, Pi.add_apply, Pi.smul_apply, smul_eq_mul]
  match a with
  | 0 => rfl
  | 1 => rfl
  | 2 => rfl

/-- C94: the matrix turns vectors about `v`. -/
theorem rotation_turns (v : Fin 3 → ℝ) (t : ℝ) (w : Fin 3 → ℝ) : rotationMatrix v t *ᵥ w = turn v t w := by
  funext a
  rw [turn_apply]
  fin_cases a <;>
    simp [rotationMatrix, Matrix.mulVec, dotProduct, Fin.sum_univ_three] <;> ring

theorem unit_sq {v : Fin 3 → ℝ} (hv : v ⬝ᵥ v = 1) : v 0 ^ 2 + v 1 ^ 2 + v 2 ^ 2 = 1 := by
  rw [dot3] at hv; linarith

theorem rotation_orthogonal (v : Fin 3 → ℝ) (hv : v ⬝ᵥ v = 1) (t : ℝ) :
    (rotationMatrix v t)ᵀ * rotationMatrix v t = 1 := by
  have h := unit_sq hv
  have hc := Real.sin_sq_add_cos_sq t
  ext i j
  rw [Matrix.mul_apply, Fin.sum_univ_three]
  fin_cases i <;> fin_cases j <;> simp [rotationMatrix, Matrix.transpose_apply]
  · linear_combination (Real.sin t ^ 2 + (1 - Real.cos t) ^ 2 * v 0 * v 0) * h + (1 - v 0 * v 0) * hc
  · linear_combination ((1 - Real.cos t) ^ 2 * v 0 * v 1) * h + (-v 0 * v 1) * hc
  · linear_combination ((1 - Real.cos t) ^ 2 * v 0 * v 2) * h + (-v 0 * v 2) * hc
  · linear_combination ((1 - Real.cos t) ^ 2 * v 0 * v 1) * h + (-v 0 * v 1) * hc
  · linear_combination (Real.sin t ^ 2 + (1 - Real.cos t) ^ 2 * v 1 * v 1) * h + (1 - v 1 * v 1) * hc
  · linear_combination ((1 - Real.cos t) ^ 2 * v 1 * v 2) * h + (-v 1 * v 2) * hc
  · linear_combination ((1 - Real.cos t) ^ 2 * v 0 * v 2) * h + (-v 0 * v 2) * hc
  · linear_combination ((1 - Real.cos t) ^ 2 * v 1 * v 2) * h + (-v 1 * v 2) * hc
  · linear_combination (Real.sin t ^ 2 + (1 - Real.cos t) ^ 2 * v 2 * v 2) * h + (1 - v 2 * v 2) * hc

theorem rotation_det (v : Fin 3 → ℝ) (hv : v ⬝ᵥ v = 1) (t : ℝ) : (rotationMatrix v t).det = 1 := by
  have h := unit_sq hv
  have hc := Real.sin_sq_add_cos_sq t
  rw [Matrix.det_fin_three]
  simp [rotationMatrix]
  linear_combination ((Real.cos t ^ 2 + Real.sin t ^ 2 * (v 0 ^ 2 + v 1 ^ 2 + v 2 ^ 2)) * (1 - Real.cos t) + Real.sin t ^ 2) * h + hc

/-- C94: about a unit vector it is a rotation: it keeps lengths, angles and handedness, and it fixes the vector; rotations by two
angles are the rotation by their sum. -/
theorem rotation_proper (v : Fin 3 → ℝ) (hv : v ⬝ᵥ v = 1) (s t : ℝ) :
    (∀ w w', rotationMatrix v t *ᵥ w ⬝ᵥ rotationMatrix v t *ᵥ w' = w ⬝ᵥ w') ∧ (rotationMatrix v t).det = 1 ∧
      rotationMatrix v t *ᵥ v = v ∧ rotationMatrix v s * rotationMatrix v t = rotationMatrix v (s + t) := by
  have h := unit_sq hv
  refine ⟨fun w w' => ?_, rotation_det v hv t, ?_, ?_⟩
  · rw [Matrix.dotProduct_mulVec, Matrix.vecMul_mulVec, rotation_orthogonal v hv, Matrix.vecMul_one]
  · rw [rotation_turns]
    funext a
    rw [turn_apply]
    fin_cases a <;> simp
    · linear_combination (1 - Real.cos t) * v 0 * h
    · linear_combination (1 - Real.cos t) * v 1 * h
    · linear_combination (1 - Real.cos t) * v 2 * h
  · ext i j
    rw [Matrix.mul_apply, Fin.sum_univ_three]
    fin_cases i <;> fin_cases j <;> simp [rotationMatrix, Real.cos_add, Real.sin_add]
    · linear_combination (-Real.sin s * Real.sin t + (1 - Real.cos s) * (1 - Real.cos t) * v 0 * v 0) * h
    · linear_combination ((1 - Real.cos s) * (1 - Real.cos t) * v 0 * v 1) * h
    · linear_combination ((1 - Real.cos s) * (1 - Real.cos t) * v 0 * v 2) * h
    · linear_combination ((1 - Real.cos s) * (1 - Real.cos t) * v 0 * v 1) * h
    · linear_combination (-Real.sin s * Real.sin t + (1 - Real.cos s) * (1 - Real.cos t) * v 1 * v 1) * h
    · linear_combination ((1 - Real.cos s) * (1 - Real.cos t) * v 1 * v 2) * h
    · linear_combination ((1 - Real.cos s) * (1 - Real.cos t) * v 0 * v 2) * h
    · linear_combination ((1 - Real.cos s) * (1 - Real.cos t) * v 1 * v 2) * h
    · linear_combination (-Real.sin s * Real.sin t + (1 - Real.cos s) * (1 - Real.cos t) * v 2 * v 2) * h

example : (![3 / 5, 0, 4 / 5] : Fin 3 → ℝ) ⬝ᵥ ![3 / 5, 0, 4 / 5] = 1 := by rw [dot3]; simp; norm_num

/-! ### The directions of a source -/

theorem polUnit {m : Aim} (hm : m.Valid) : (![0, 0, m.polarity] : Fin 3 → ℝ) ⬝ᵥ ![0, 0, m.polarity] = 1 := by
  rw [dot3]
  rcases hm with h | h <;> simp [h]

theorem exUnit : (![1, 0, 0] : Fin 3 → ℝ) ⬝ᵥ ![1, 0, 0] = 1 := by rw [dot3]; simp

theorem ortho_mul {A B : Matrix (Fin 3) (Fin 3) ℝ} (hA : Aᵀ * A = 1) (hB : Bᵀ * B = 1) : (A * B)ᵀ * (A * B) = 1 := by
  rw [Matrix.transpose_mul, Matrix.mul_assoc, ← Matrix.mul_assoc Aᵀ, hA, Matrix.one_mul, hB]

theorem ortho_dot {A : Matrix (Fin 3) (Fin 3) ℝ} (hA : Aᵀ * A = 1) (w w' : Fin 3 → ℝ) : A *ᵥ w ⬝ᵥ A *ᵥ w' = w ⬝ᵥ w' := by
  rw [Matrix.dotProduct_mulVec, Matrix.vecMul_mulVec, hA, Matrix.vecMul_one]

theorem tilt_ortho {m : Aim} (hm : m.Valid) : m.tiltᵀ * m.tilt = 1 :=
  ortho_mul (rotation_orthogonal _ (polUnit hm) _) (rotation_orthogonal _ exUnit _)

theorem k_unit {m : Aim} (hm : m.Valid) : m.k ⬝ᵥ m.k = 1 := by
  rw [Aim.k, ortho_dot (tilt_ortho hm), polUnit hm]

theorem R_eq (m : Aim) : m.R = rotationMatrix m.k m.pol * m.tilt := by rw [Aim.R, Aim.tilt, Matrix.mul_assoc]

theorem R_ortho {m : Aim} (hm : m.Valid) : m.Rᵀ * m.R = 1 := by
  rw [R_eq]; exact ortho_mul (rotation_orthogonal _ (k_unit hm) _) (tilt_ortho hm)

theorem R_k {m : Aim} (hm : m.Valid) : m.R *ᵥ ![0, 0, m.polarity] = m.k := by
  rw [R_eq, ← Matrix.mulVec_mulVec]
  exact (rotation_proper _ (k_unit hm) 0 _).2.2.1

theorem R_inv {m : Aim} (hm : m.Valid) : m.R⁻¹ = m.Rᵀ := Matrix.inv_eq_left_inv (R_ortho hm)

theorem e0_unit {m : Aim} (hm : m.Valid) : m.e0 ⬝ᵥ m.e0 = 1 := by rw [Aim.e0, ortho_dot (R_ortho hm), exUnit]

theorem e0_k {m : Aim} (hm : m.Valid) : m.e0 ⬝ᵥ m.k = 0 := by
  rw [Aim.e0, ← R_k hm, ortho_dot (R_ortho hm), dot3]; simp

/-- Along the propagation the coordinate grows by `k · x`. -/
theorem along {m : Aim} (hm : m.Valid) (x : Fin 3 → ℝ) : m.polarity * rowDot m.R⁻¹ 2 x = m.k ⬝ᵥ x := by
  have h : ∀ j, m.R j 2 * m.polarity = m.k j := fun j => by
    rw [← R_k hm, Matrix.mulVec, dotProduct, Fin.sum_univ_three]; simp
  rw [dot3, ← h, ← h, ← h, rowDot, R_inv hm]
  simp only [Matrix.transpose_apply]
  ring

/-! ### Rolling back -/

theorem rev_order : ∀ axis b : Fin 3, wgRevOrder axis (wgOrder axis b) = b := by decide
theorem order_add : ∀ axis o j : Fin 3, wgOrder axis (o + j) = wgOrder axis o + j := by decide
theorem rev_add : ∀ axis o j : Fin 3, wgRevOrder axis (o + j) = wgRevOrder axis o + j := by decide

theorem sum_rev (axis : Fin 3) (f : Fin 3 → ℝ) : ∑ a, f (wgRevOrder axis a) = ∑ a, f a := by
  fin_cases axis
  · show ∑ a, f (wgRevOrder 0 a) = _
    rw [Fin.sum_univ_three, Fin.sum_univ_three, show wgRevOrder 0 0 = 2 from by decide, show wgRevOrder 0 1 = 0 from by decide,
      show wgRevOrder 0 2 = 1 from by decide]
    ring
  · show ∑ a, f (wgRevOrder 1 a) = _
    rw [Fin.sum_univ_three, Fin.sum_univ_three, show wgRevOrder 1 0 = 1 from by decide, show wgRevOrder 1 1 = 2 from by decide,
      show wgRevOrder 1 2 = 0 from by decide]
    ring
  · show ∑ a, f (wgRevOrder 2 a) = _
    rw [Fin.sum_univ_three, Fin.sum_univ_three, show wgRevOrder 2 0 = 0 from by decide, show wgRevOrder 2 1 = 1 from by decide,
      show wgRevOrder 2 2 = 2 from by decide]

/-- Turning commutes with rolling the axes. -/
theorem turn_roll (axis : Fin 3) (v w : Fin 3 → ℝ) (t : ℝ) :
    (fun a => turn v t w (wgRevOrder axis a)) = turn (fun a => v (wgRevOrder axis a)) t (fun a => w (wgRevOrder axis a)) := by
  funext a
  have hs := sum_rev axis (fun a => v a * w a)
  simp only [Fin.sum_univ_three] at hs
  rw [turn_apply, turn_apply, rev_add, rev_add, hs]

theorem roll_ez (axis : Fin 3) (p : ℝ) : (fun a => (![0, 0, p] : Fin 3 → ℝ) (wgRevOrder axis a)) = p • unitVec axis := by
  funext a
  have h : ∀ axis a : Fin 3, (wgRevOrder axis a = 2) ↔ a = axis := by decide
  by_cases ha : a = axis
  · rw [(h axis a).2 ha]; simp [unitVec, ha]
  · have h2 : wgRevOrder axis a ≠ 2 := fun e => ha ((h axis a).1 e)
    have : wgRevOrder axis a = 0 ∨ wgRevOrder axis a = 1 := by revert h2; generalize wgRevOrder axis a = x; revert x; decide
    rcases this with e | e <;> simp [e, unitVec, ha]

theorem roll_ex (axis : Fin 3) : (fun a => (![1, 0, 0] : Fin 3 → ℝ) (wgRevOrder axis a)) = unitVec (axis + 1) := by
  funext a
  have h : ∀ axis a : Fin 3, (wgRevOrder axis a = 0) ↔ a = axis + 1 := by decide
  by_cases ha : a = axis + 1
  · rw [(h axis a).2 ha]; simp [unitVec, ha]
  · have h2 : wgRevOrder axis a ≠ 0 := fun e => ha ((h axis a).1 e)
    have : wgRevOrder axis a = 1 ∨ wgRevOrder axis a = 2 := by revert h2; generalize wgRevOrder axis a = x; revert x; decide
    rcases this with e | e <;> simp [e, unitVec, ha]

theorem k_heading (axis : Fin 3) (m : Aim) : (fun a => m.k (wgRevOrder axis a)) = heading axis m := by
  rw [Aim.k, Aim.tilt, ← Matrix.mulVec_mulVec, rotation_turns, rotation_turns, turn_roll, turn_roll, roll_ez, roll_ex, heading]

theorem turn_self_ex (t : ℝ) : turn ![1, 0, 0] t ![1, 0, 0] = ![1, 0, 0] := by
  rw [← rotation_turns]; exact (rotation_proper _ exUnit 0 t).2.2.1

theorem e0_polarization (axis : Fin 3) (m : Aim) : (fun a => m.e0 (wgRevOrder axis a)) = polarization axis m := by
  rw [Aim.e0, R_eq, Aim.tilt, ← Matrix.mulVec_mulVec, ← Matrix.mulVec_mulVec, rotation_turns, rotation_turns, rotation_turns,
    turn_self_ex, turn_roll, turn_roll, roll_ez, roll_ex, k_heading, polarization]

theorem dot_rev (axis : Fin 3) (v w : Fin 3 → ℝ) :
    (fun a => v (wgRevOrder axis a)) ⬝ᵥ (fun a => w (wgRevOrder axis a)) = v ⬝ᵥ w := sum_rev axis fun a => v a * w a

/-- C94: heading and polarization are perpendicular unit vectors. -/
theorem heading_polarization (axis : Fin 3) (m : Aim) (hm : m.Valid) :
    heading axis m ⬝ᵥ heading axis m = 1 ∧ polarization axis m ⬝ᵥ polarization axis m = 1 ∧
      polarization axis m ⬝ᵥ heading axis m = 0 := by
  rw [← k_heading, ← e0_polarization, dot_rev, dot_rev, dot_rev]
  exact ⟨k_unit hm, e0_unit hm, e0_k hm⟩

/-- C94: `theta` is the angle between the heading and the axis; without rotations a wave travels along the axis with the sign of the
polarity, polarized along x if the axis is z, y if it is x and z if it is y; turning the polarization turns it about the axis. -/
theorem heading_cases (axis : Fin 3) (m : Aim) (hm : m.Valid) :
    heading axis m axis = m.polarity * Real.cos m.theta ∧
    (m.theta = 0 → heading axis m = m.polarity • unitVec axis) ∧
    (m.psi = 0 → m.pol = 0 → polarization axis m = unitVec (axis + 1)) ∧
    (m.theta = 0 → m.psi = 0 → polarization axis m =
      Real.cos m.pol • unitVec (axis + 1) + (Real.sin m.pol * m.polarity) • unitVec (axis + 2)) := by
  have hp : m.polarity * m.polarity = 1 := by rcases hm with h | h <;> simp [h]
  have ha : ∀ a b : Fin 3, unitVec a b = if b = a then 1 else 0 := fun _ _ => rfl
  have d0 : ∀ a : Fin 3, a + 1 ≠ a ∧ a + 2 ≠ a ∧ a ≠ a + 1 ∧ a + 2 ≠ a + 1 ∧ a ≠ a + 2 ∧ a + 1 ≠ a + 2 := by decide
  have d1 : ∀ a : Fin 3, a + 1 + 1 = a + 2 ∧ a + 1 + 2 = a ∧ a + 2 + 1 = a ∧ a + 2 + 2 = a + 1 := by decide
  have dall : ∀ a b : Fin 3, b = a ∨ b = a + 1 ∨ b = a + 2 := by decide
  obtain ⟨n1, n2, n3, n4, n5, n6⟩ := d0 axis
  obtain ⟨e1, e2, e3, e4⟩ := d1 axis
  have dsum : ∀ v w : Fin 3 → ℝ, v 0 * w 0 + v 1 * w 1 + v 2 * w 2 = v axis * w axis + v (axis + 1) * w (axis + 1) +
      v (axis + 2) * w (axis + 2) := fun v w => by
    fin_cases axis
    · rfl
    · show _ = v 1 * w 1 + v 2 * w 2 + v 0 * w 0
      ring
    · show _ = v 2 * w 2 + v 0 * w 0 + v 1 * w 1
      ring
  have h1 : ∀ m : Aim, m.theta = 0 → heading axis m = turn (m.polarity • unitVec axis) m.psi (m.polarity • unitVec axis) := by
    intro m h
    rw [heading, h]
    congr 1
    simp [turn]
  have h2 : m.theta = 0 → heading axis m = m.polarity • unitVec axis := by
    intro h
    rw [h1 m h]
    funext b
    rw [turn_apply, dsum]
    rcases dall axis b with hb | hb | hb <;> subst hb <;>
      simp only [Pi.smul_apply, smul_eq_mul, ha, if_pos, if_neg n1, if_neg n2, if_neg n3, if_neg n4, if_neg n5, if_neg n6, e1, e2, e3, e4]
    · linear_combination (1 - Real.cos m.psi) * m.polarity * hp
    · ring
    · ring
  refine ⟨?_, h2, ?_, ?_⟩
  · rw [heading, turn_apply, dsum]
    simp only [turn_apply, dsum, Pi.smul_apply, smul_eq_mul, ha, if_pos, if_neg n1, if_neg n2, if_neg n3, if_neg n4, if_neg n5, if_neg n6, e1,
      e2, e3, e4]
    linear_combination (1 - Real.cos m.psi) * Real.cos m.theta * m.polarity * hp
  · intro h h'
    rw [polarization, h, h']
    simp [turn]
  · intro h h'
    rw [polarization, h2 h, h']
    have : turn (m.polarity • unitVec axis) 0 (unitVec (axis + 1)) = unitVec (axis + 1) := by simp [turn]
    rw [this]
    funext b
    rw [turn_apply, dsum]
    rcases dall axis b with hb | hb | hb <;> subst hb <;>
      simp only [Pi.smul_apply, Pi.add_apply, smul_eq_mul, ha, if_pos, if_neg n1, if_neg n2, if_neg n3, if_neg n4, if_neg n5, if_neg n6, e1, e2, e3, e4]
    · ring
    · ring
    · ring

/-! ### The electric field of a plane wave -/

theorem vectorFields_some {g : EpsGrid sh} {mu : Option (FieldT sh)} {omega : ℝ} {axis : Fin 3} {sl : Slc}
    {f : (Fin 3 → ℝ) → Matrix (Fin 3) (Fin 3) ℝ → ℂ} {m : Aim} {power : ℝ} {fl : Fields sh}
    (h : vectorFields g mu omega axis sl f m power = some fl) :
    (∀ a c, fl.E a c = (Real.sqrt power : ℂ) * localE g axis f m (wgRevOrder axis a) (rollCell axis c)) ∧
      fl.wavevector = (omega * Real.sqrt (epsVal g sl)) • heading axis m := by
  rw [vectorFields, Option.map_eq_some_iff] at h
  obtain ⟨H, _, rfl⟩ := h
  refine ⟨fun _ _ => rfl, ?_⟩
  rw [← k_heading]
  funext a
  simp only [localBloch, Pi.smul_apply, smul_eq_mul]
  ring

theorem planeScalar_eq {m : Aim} (hm : m.Valid) (omega eps : ℝ) (x : Fin 3 → ℝ) :
    planeScalar omega m.polarity eps x m.R⁻¹ = Complex.exp (-Complex.I * ((omega * Real.sqrt eps * (m.k ⬝ᵥ x) : ℝ) : ℂ)) := by
  rw [planeScalar, ← along hm, div_div_cancel₀ (by positivity)]
  congr 1
  push_cast
  ring

/-- C94: the electric field of a plane wave, at the position of each of its components, is the wave `exp(-i K·r)` with the wavevector
that is returned and the polarization: the wavevector has the heading and the length `omega` times the refractive index at the source. -/
theorem plane_wave_field (g : EpsGrid sh) (mu : Option (FieldT sh)) (omega : ℝ) (axis : Fin 3) (sl : Slc) (m : Aim) (power : ℝ)
    (hm : m.Valid) (hω : 0 < omega) (he : 0 < epsVal g sl) (fl : Fields sh)
    (h : vectorFields g mu omega axis sl (planeScalar omega m.polarity (epsVal g sl)) m power = some fl) :
    fl.wavevector = (omega * Real.sqrt (epsVal g sl)) • heading axis m ∧
    ∀ a c, fl.E a c = (Real.sqrt power : ℂ) *
      Complex.exp (-Complex.I * ((∑ b, fl.wavevector b * g.xyz a b (c b).val : ℝ) : ℂ)) * (polarization axis m a : ℂ) := by
  obtain ⟨hE, hw⟩ := vectorFields_some h
  refine ⟨hw, fun a c => ?_⟩
  have hk : (m.k ⬝ᵥ fun j => g.xyz a (wgOrder axis j) (c (wgOrder axis j)).val) =
      ∑ b, heading axis m b * g.xyz a b (c b).val := by
    rw [← k_heading, dotProduct]
    refine Eq.trans ?_ (sum_rev axis (fun j => m.k j * g.xyz a (wgOrder axis j) (c (wgOrder axis j)).val)).symm |>.trans ?_
    · rfl
    · exact Finset.sum_congr rfl fun b _ => by rw [order_rev]
  rw [hE, localE, planeScalar_eq hm, ← e0_polarization]
  simp only [rollCell, order_rev]
  have hsum : omega * Real.sqrt (epsVal g sl) * ∑ b, heading axis m b * g.xyz a b (c b).val =
      ∑ b, ((omega * Real.sqrt (epsVal g sl)) • heading axis m) b * g.xyz a b (c b).val := by
    rw [Finset.mul_sum]
    exact Finset.sum_congr rfl fun b _ => by rw [Pi.smul_apply, smul_eq_mul]; ring
  rw [hk, hsum, hw, ← mul_assoc]

theorem vectorFields_exists (g : EpsGrid sh) (mu : Option (FieldT sh)) (omega : ℝ) (axis : Fin 3) (sl : Slc)
    (f : (Fin 3 → ℝ) → Matrix (Fin 3) (Fin 3) ℝ → ℂ) (m : Aim) (power : ℝ) :
    ∃ fl, vectorFields g mu omega axis sl f m power = some fl := by
  obtain ⟨⟨C, hC⟩, _⟩ := curl_defined (fun j => sh (wgOrder axis j))
    ⟨fun j => g.d.e (wgOrder axis j), fun j => g.d.h (wgOrder axis j)⟩ (fun o => (localBloch g omega sl m o : ℂ))
  simp only [vectorFields, localH, e2h, hC, Option.map_some]
  exact ⟨_, rfl⟩

/-! ### The magnetic field -/

theorem vecF_isVec (f : FieldT sh) : IsVec f (vecF f) := fun a c => by rw [vecF, cellAt_pos]

theorem roll_next (axis o : Fin 3) (c : Cell sh) : nextCell o (rollCell axis c) = rollCell axis (nextCell (wgOrder axis o) c) := by
  funext j
  apply Fin.ext
  have hinj : (wgOrder axis j = wgOrder axis o) ↔ j = o := by revert axis o j; decide
  simp only [nextCell, rollCell]
  by_cases h : j = o
  · rw [if_pos h, if_pos (hinj.2 h)]
  · rw [if_neg h, if_neg (fun e => h (hinj.1 e))]

theorem roll_fwd (axis o : Fin 3) (dx : Fin 3 → Nat → ℂ) (k : Fin 3 → ℂ) (f : Cell (fun j => sh (wgOrder axis j)) → ℂ) (c : Cell sh) :
    fwdDiff (fun j => dx (wgOrder axis j)) (fun j => k (wgOrder axis j)) o f (rollCell axis c) =
      fwdDiff dx k (wgOrder axis o) (fun c => f (rollCell axis c)) c := by
  simp only [fwdDiff, upPhase, roll_next]
  rfl

theorem localH_curl {g : EpsGrid sh} {mu : FieldT sh} {omega : ℝ} {axis : Fin 3} {sl : Slc}
    {f : (Fin 3 → ℝ) → Matrix (Fin 3) (Fin 3) ℝ → ℂ} {m : Aim} {H : FieldT (fun j => sh (wgOrder axis j))}
    (h : localH g mu omega axis sl f m = some H) (o : Fin 3) (c : Cell sh) :
    H o (rollCell axis c) = 1 / mu (wgOrder axis o) c * (1 / (-Complex.I * omega) *
      (fwdDiff (fun j => g.d.e (wgOrder axis j)) (fun j => (localBloch g omega sl m j : ℂ)) (o + 1) (localE g axis f m (o + 2))
          (rollCell axis c) -
        fwdDiff (fun j => g.d.e (wgOrder axis j)) (fun j => (localBloch g omega sl m j : ℂ)) (o + 2) (localE g axis f m (o + 1))
          (rollCell axis c))) := by
  obtain ⟨⟨C, hC⟩, _⟩ := curl_defined (fun j => sh (wgOrder axis j))
    ⟨fun j => g.d.e (wgOrder axis j), fun j => g.d.h (wgOrder axis j)⟩ (fun o => (localBloch g omega sl m o : ℂ))
  rw [localH, Option.map_eq_some_iff] at h
  obtain ⟨T, hT, rfl⟩ := h
  simp only [e2h, hC, Option.map_some, Option.some.injEq] at hT
  subst hT
  obtain ⟨h0, h1, h2⟩ := curl_e_pointwise _ _ C hC _ _ (vecF_isVec (localE g axis f m)) (rollCell axis c)
  rw [unvecF, ← Matrix.mulVec_mulVec, Matrix.mulVec_diagonal, Matrix.smul_mulVec, Pi.smul_apply, smul_eq_mul, vecF, cellAt_pos]
  congr 1
  · have hx : ∀ x y : Fin 3, x = y → (c x).val = (c y).val := by rintro _ _ rfl; rfl
    congr 2
    funext b
    exact Fin.ext (hx _ _ (order_rev axis b))
  · congr 1
    match o with
    | 0 => exact h0
    | 1 => exact h1
    | 2 => exact h2

/-- The permeability: one if it is not given. -/
def permeability (mu : Option (FieldT sh)) (a : Fin 3) (c : Cell sh) : ℂ :=
  match mu with
  | none => 1
  | some M => M a c

theorem fwd_scale (dx : Fin 3 → Nat → ℂ) (k : Fin 3 → ℂ) (b : Fin 3) (F : Cell sh → ℂ) (s : ℂ) (c : Cell sh) :
    fwdDiff dx k b (fun c => s * F c) c = s * fwdDiff dx k b F c := by
  simp only [fwdDiff]
  ring

/-- C94: the magnetic field obeys Faraday's law, `curl E = -i omega mu H`, on the grid of the simulation, with the Bloch condition of the
wavevector that is returned. `mu` is one if it is not given. -/
theorem faraday (g : EpsGrid sh) (mu : Option (FieldT sh)) (omega : ℝ) (axis : Fin 3) (sl : Slc)
    (f : (Fin 3 → ℝ) → Matrix (Fin 3) (Fin 3) ℝ → ℂ) (m : Aim) (power : ℝ) (hω : omega ≠ 0)
    (hμ : ∀ a c, permeability mu a c ≠ 0) (fl : Fields sh)
    (h : vectorFields g mu omega axis sl f m power = some fl) (a : Fin 3) (c : Cell sh) :
    fwdDiff g.d.e (fun b => (fl.wavevector b : ℂ)) (a + 1) (fl.E (a + 2)) c -
      fwdDiff g.d.e (fun b => (fl.wavevector b : ℂ)) (a + 2) (fl.E (a + 1)) c =
      -Complex.I * omega * permeability mu a c * fl.H a c := by
  have hI := Complex.I_ne_zero
  have hω' : (omega : ℂ) ≠ 0 := Complex.ofReal_ne_zero.2 hω
  rw [vectorFields, Option.map_eq_some_iff] at h
  obtain ⟨H, hH, rfl⟩ := h
  have hk : (fun j => (localBloch g omega sl m j : ℂ)) =
      fun j => (fun b => (localBloch g omega sl m (wgRevOrder axis b) : ℂ)) (wgOrder axis j) := by
    funext j; simp only [rev_order]
  have hc := localH_curl hH (wgRevOrder axis a) c
  have hr := fun o F => roll_fwd axis o g.d.e (fun b => (localBloch g omega sl m (wgRevOrder axis b) : ℂ)) F c
  rw [hk, hr, hr, order_add, order_add, order_rev, ← rev_add, ← rev_add] at hc
  have hμ' : (mu.getD fun _ _ => 1) a c = permeability mu a c := by cases mu <;> rfl
  have hμ0 := hμ a c
  rw [hμ'] at hc
  simp only [fwd_scale, hc]
  field_simp

end Verif.Fdfd.FreeSpace
