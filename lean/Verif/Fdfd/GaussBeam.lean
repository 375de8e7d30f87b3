import Verif.Fdfd.FreeSpaceOneWay
import Mathlib.Analysis.SpecialFunctions.Gaussian.GaussianIntegral
import Mathlib.Analysis.SpecialFunctions.ExpDeriv
import Mathlib.Analysis.SpecialFunctions.Complex.Arctan
/-
Property C94 (fifth part): Gaussian beams, normalisation by a simulation, dipoles.
-/
namespace Verif.Fdfd.FreeSpace
open Matrix
variable {sh : Shape}
set_option linter.unusedVariables false
set_option linter.unusedSimpArgs false

/-! ### Specification -/

/-- The complex parameter of a beam of waist `w0` at the distance `s` behind its focus, for the wavenumber `k`. -/
noncomputable def beamQ (k w0 s : ℝ) : ℂ := 1 - Complex.I * ((2 * s / (k * w0 ^ 2) : ℝ) : ℂ)

/-- The envelope of a beam at the distance `s` behind the focus and the squared distance `r2` from the axis. -/
noncomputable def envelope (k w0 r2 s : ℝ) : ℂ := 1 / beamQ k w0 s * Complex.exp (-(r2 : ℂ) / (w0 ^ 2 * beamQ k w0 s))

/-- The field of a beam: the envelope on a plane wave. -/
noncomputable def beamAt (k w0 amp r2 s : ℝ) : ℂ := (amp : ℂ) * envelope k w0 r2 s * Complex.exp (-Complex.I * ((k * s : ℝ) : ℂ))

/-- The amplitude that carries the power one in a medium of the impedance `imp`. -/
noncomputable def beamAmp (w0 imp : ℝ) : ℝ := Real.sqrt imp * 2 / (Real.sqrt Real.pi * w0)

/-! ### The beam -/

theorem beamQ_ne (k w0 s : ℝ) : beamQ k w0 s ≠ 0 := by
  intro h
  have := congrArg Complex.re h
  rw [beamQ, Complex.sub_re, Complex.re_mul_ofReal] at this
  simp at this

theorem arctan_phase (x : ℝ) : Complex.exp (Complex.I * (Real.arctan x : ℂ)) = (1 + Complex.I * x) / (Real.sqrt (1 + x ^ 2) : ℂ) := by
  rw [mul_comm, Complex.exp_mul_I, ← Complex.ofReal_cos, ← Complex.ofReal_sin, Real.cos_arctan, Real.sin_arctan]
  push_cast
  ring

theorem beam_scalar (omega eps w0 : ℝ) (hω : 0 < omega) (he : 0 < eps) (hw : 0 < w0) (p z r2 : ℝ) (hp : p = 1 ∨ p = -1) :
    (let wlen := 2 * Real.pi / (omega * Real.sqrt eps)
     let k := 2 * Real.pi / wlen
     let zr := Real.pi * w0 ^ 2 / wlen
     let wz := w0 * Real.sqrt (1 + (z / zr) ^ 2)
     let invRz := if z ≠ 0 then (z * (1 + (zr / z) ^ 2))⁻¹ else 0
     let gouy := Real.arctan (z / zr)
     let imp := Real.sqrt (1 / eps)
     ((Real.sqrt imp * 2 / (Real.sqrt Real.pi * w0) * (w0 / wz) * Real.exp (-r2 / wz ^ 2) : ℝ) : ℂ) *
       Complex.exp (-Complex.I * p * ((k * z + k * invRz * (r2 / 2) - gouy : ℝ) : ℂ))) =
      beamAt (omega * Real.sqrt eps) w0 (beamAmp w0 (Real.sqrt (1 / eps))) r2 (p * z) := by
  have hn : 0 < Real.sqrt eps := Real.sqrt_pos.2 he
  set K := omega * Real.sqrt eps with hK
  have hK0 : 0 < K := mul_pos hω hn
  have hpi := Real.pi_pos
  simp only []
  have hk : 2 * Real.pi / (2 * Real.pi / K) = K := div_div_cancel₀ (by positivity)
  have hzr : Real.pi * w0 ^ 2 / (2 * Real.pi / K) = K * w0 ^ 2 / 2 := by field_simp
  rw [hk, hzr]
  set ζ : ℝ := z / (K * w0 ^ 2 / 2) with hζ
  have hq : beamQ K w0 (p * z) = 1 - Complex.I * ((p * ζ : ℝ) : ℂ) := by
    rw [beamQ, hζ]; congr 3; field_simp
  have hs : 0 < 1 + ζ ^ 2 := by positivity
  have hinv : (if z ≠ 0 then (z * (1 + (K * w0 ^ 2 / 2 / z) ^ 2))⁻¹ else 0) = ζ / (1 + ζ ^ 2) / (K * w0 ^ 2 / 2) := by
    by_cases hz : z = 0
    · rw [if_neg (by simpa using hz), hζ, hz]; simp
    · rw [if_pos hz, hζ]
      have : 0 < z ^ 2 := by positivity
      field_simp
      ring
  rw [hinv]
  have hsq : Real.sqrt (1 + ζ ^ 2) ^ 2 = 1 + ζ ^ 2 := Real.sq_sqrt hs.le
  have hsp : 0 < Real.sqrt (1 + ζ ^ 2) := Real.sqrt_pos.2 hs
  have hp2 : p ^ 2 = 1 := by rcases hp with h | h <;> rw [h] <;> norm_num
  have hgouy : Complex.exp (Complex.I * ((p * Real.arctan ζ : ℝ) : ℂ)) =
      (1 + Complex.I * ((p * ζ : ℝ) : ℂ)) / (Real.sqrt (1 + ζ ^ 2) : ℂ) := by
    have h1 : p * Real.arctan ζ = Real.arctan (p * ζ) := by
      rcases hp with h | h <;> rw [h]
      · simp
      · rw [neg_one_mul, neg_one_mul, Real.arctan_neg]
    have h2 : 1 + ζ ^ 2 = 1 + (p * ζ) ^ 2 := by rw [mul_pow, hp2, one_mul]
    rw [h1, arctan_phase, h2]
  have hprod : (1 - Complex.I * ((p * ζ : ℝ) : ℂ)) * (1 + Complex.I * ((p * ζ : ℝ) : ℂ)) = ((1 + ζ ^ 2 : ℝ) : ℂ) := by
    have : (((p * ζ) ^ 2 : ℝ) : ℂ) = ((ζ ^ 2 : ℝ) : ℂ) := by rw [mul_pow, hp2, one_mul]
    push_cast at this ⊢
    linear_combination (-(p * ζ) ^ 2 : ℂ) * Complex.I_sq + this
  have hs' : ((1 + ζ ^ 2 : ℝ) : ℂ) ≠ 0 := Complex.ofReal_ne_zero.2 hs.ne'
  have hqn : (1 - Complex.I * ((p * ζ : ℝ) : ℂ)) ≠ 0 := hq ▸ beamQ_ne K w0 (p * z)
  have hqinv : 1 / (1 - Complex.I * ((p * ζ : ℝ) : ℂ)) = (1 + Complex.I * ((p * ζ : ℝ) : ℂ)) / ((1 + ζ ^ 2 : ℝ) : ℂ) := by
    rw [div_eq_div_iff hqn hs', one_mul, mul_comm, hprod]
  have hw' : (w0 : ℂ) ≠ 0 := Complex.ofReal_ne_zero.2 hw.ne'
  -- the exponents
  have hexp : -Complex.I * p * ((K * z + K * (ζ / (1 + ζ ^ 2) / (K * w0 ^ 2 / 2)) * (r2 / 2) - Real.arctan ζ : ℝ) : ℂ) =
      -Complex.I * ((K * (p * z) : ℝ) : ℂ) + -Complex.I * ((p * ζ * r2 / (w0 ^ 2 * (1 + ζ ^ 2)) : ℝ) : ℂ) +
        Complex.I * ((p * Real.arctan ζ : ℝ) : ℂ) := by
    have : K * (ζ / (1 + ζ ^ 2) / (K * w0 ^ 2 / 2)) * (r2 / 2) = ζ * r2 / (w0 ^ 2 * (1 + ζ ^ 2)) := by field_simp
    rw [this]
    push_cast
    ring
  have henv : -(r2 : ℂ) / (w0 ^ 2 * (1 - Complex.I * ((p * ζ : ℝ) : ℂ))) =
      ((-r2 / (w0 * Real.sqrt (1 + ζ ^ 2)) ^ 2 : ℝ) : ℂ) + -Complex.I * ((p * ζ * r2 / (w0 ^ 2 * (1 + ζ ^ 2)) : ℝ) : ℂ) := by
    have h1 : -(r2 : ℂ) / (w0 ^ 2 * (1 - Complex.I * ((p * ζ : ℝ) : ℂ))) =
        -(r2 : ℂ) / w0 ^ 2 * (1 / (1 - Complex.I * ((p * ζ : ℝ) : ℂ))) := by
      rw [mul_one_div, div_div]
    rw [h1, hqinv, mul_pow, hsq]
    push_cast
    have hs'' : (1 + (ζ : ℂ) ^ 2) ≠ 0 := by push_cast at hs'; exact hs'
    field_simp
    ring
  rw [hexp, Complex.exp_add, Complex.exp_add, hgouy, beamAt, envelope, hq, henv, Complex.exp_add, hqinv, beamAmp]
  have hamp : Real.sqrt (Real.sqrt (1 / eps)) * 2 / (Real.sqrt Real.pi * w0) * (w0 / (w0 * Real.sqrt (1 + ζ ^ 2))) =
      Real.sqrt (Real.sqrt (1 / eps)) * 2 / (Real.sqrt Real.pi * w0) * (1 / Real.sqrt (1 + ζ ^ 2)) := by
    rw [div_mul_cancel_left₀ hw.ne', one_div, one_div]
  rw [hamp, Complex.ofReal_mul, Complex.ofReal_mul _ (1 / _), Complex.ofReal_exp]
  have hss : (Real.sqrt (1 + ζ ^ 2) : ℂ) * (Real.sqrt (1 + ζ ^ 2) : ℂ) = ((1 + ζ ^ 2 : ℝ) : ℂ) := by
    rw [← Complex.ofReal_mul, Real.mul_self_sqrt hs.le]
  have hsn : (Real.sqrt (1 + ζ ^ 2) : ℂ) ≠ 0 := Complex.ofReal_ne_zero.2 hsp.ne'
  rw [← hss, Complex.ofReal_div 1, Complex.ofReal_one]
  field_simp

theorem rotated_norm {R : Matrix (Fin 3) (Fin 3) ℝ} (h : Rᵀ * R = 1) (x : Fin 3 → ℝ) :
    rowDot R⁻¹ 0 x ^ 2 + rowDot R⁻¹ 1 x ^ 2 = x ⬝ᵥ x - rowDot R⁻¹ 2 x ^ 2 := by
  have hi : R⁻¹ = Rᵀ := Matrix.inv_eq_left_inv h
  have hR : R * Rᵀ = 1 := mul_eq_one_comm.1 h
  have hd : Rᵀ *ᵥ x ⬝ᵥ Rᵀ *ᵥ x = x ⬝ᵥ x := by
    rw [Matrix.dotProduct_mulVec, Matrix.vecMul_mulVec, Matrix.transpose_transpose, hR, Matrix.vecMul_one]
  have hr : ∀ i, rowDot R⁻¹ i x = (Rᵀ *ᵥ x) i := fun i => by
    rw [hi, rowDot, Matrix.mulVec, dotProduct, Fin.sum_univ_three]
  rw [hr, hr, hr, ← hd, dot3]
  ring

/-- C94: the electric field of a Gaussian beam, at the position of each of its components, is the beam of the given waist that travels along
the heading, with its focus at the point whose coordinate `b` is the entry `reverse_order[b]` of `center`. -/
theorem gaussian_field (g : EpsGrid sh) (mu : Option (FieldT sh)) (omega w0 : ℝ) (center : Fin 3 → ℝ) (axis : Fin 3) (sl : Slc) (m : Aim)
    (power : ℝ) (hm : m.Valid) (hω : 0 < omega) (he : 0 < epsVal g sl) (hw : 0 < w0) (fl : Fields sh)
    (h : vectorFields g mu omega axis sl (gaussScalar omega m.polarity (epsVal g sl) w0 center) m power = some fl) (a : Fin 3) (c : Cell sh) :
    fl.wavevector = (omega * Real.sqrt (epsVal g sl)) • heading axis m ∧
    let r : Fin 3 → ℝ := fun b => g.xyz a b (c b).val - center (wgRevOrder axis b)
    let s := heading axis m ⬝ᵥ r
    fl.E a c = (Real.sqrt power : ℂ) * beamAt (omega * Real.sqrt (epsVal g sl)) w0
      (beamAmp w0 (Real.sqrt (1 / epsVal g sl))) (r ⬝ᵥ r - s ^ 2) s * (polarization axis m a : ℂ) := by
  obtain ⟨hE, hwv⟩ := vectorFields_some h
  refine ⟨hwv, ?_⟩
  intro r s
  set x : Fin 3 → ℝ := fun j => g.xyz a (wgOrder axis j) (c (wgOrder axis j)).val - center j with hx
  have hrx : r = fun b => x (wgRevOrder axis b) := by
    have hc : ∀ x y : Fin 3, x = y → (c x).val = (c y).val := by rintro _ _ rfl; rfl
    funext b
    simp only [r, hx]
    rw [hc _ _ (order_rev axis b), order_rev]
  have hs : s = m.k ⬝ᵥ x := by
    show heading axis m ⬝ᵥ r = _
    rw [hrx, ← k_heading, dot_rev]
  have hrr : r ⬝ᵥ r = x ⬝ᵥ x := by rw [hrx, dot_rev]
  have hz := along hm x
  have hp2 : m.polarity ^ 2 = 1 := by rcases hm with e | e <;> rw [e] <;> norm_num
  have hr2 : rowDot m.R⁻¹ 0 x ^ 2 + rowDot m.R⁻¹ 1 x ^ 2 = x ⬝ᵥ x - s ^ 2 := by
    rw [rotated_norm (R_ortho hm), hs, ← hz, mul_pow, hp2, one_mul]
  have key := beam_scalar omega (epsVal g sl) w0 hω he hw m.polarity (rowDot m.R⁻¹ 2 x)
    (rowDot m.R⁻¹ 0 x ^ 2 + rowDot m.R⁻¹ 1 x ^ 2) hm
  rw [hE, localE, ← e0_polarization, ← mul_assoc]
  simp only [order_rev, rollCell]
  congr 1
  congr 1
  rw [hz, hr2] at key
  rw [hrr, hs]
  rw [hs] at key
  rw [← key]
  simp only [gaussScalar]
  rw [show (fun j => g.xyz a (wgOrder axis j) (c (wgOrder axis j)).val - center j) = x from rfl, hr2, hs]

/-! ### The beam solves the paraxial equation and carries the power one -/

/-- C94: the envelope solves the paraxial wave equation `∂xx A + ∂yy A = 2 i k ∂s A`. -/
theorem envelope_paraxial (k w0 : ℝ) (hk : 0 < k) (hw : 0 < w0) (x y s : ℝ) :
    deriv (fun x' : ℝ => deriv (fun x'' : ℝ => envelope k w0 (x'' ^ 2 + y ^ 2) s) x') x +
      deriv (fun y' : ℝ => deriv (fun y'' : ℝ => envelope k w0 (x ^ 2 + y'' ^ 2) s) y') y =
      2 * Complex.I * k * deriv (fun s' : ℝ => envelope k w0 (x ^ 2 + y ^ 2) s') s := by
  have hq := beamQ_ne k w0 s
  have hw' : (w0 : ℂ) ≠ 0 := Complex.ofReal_ne_zero.2 hw.ne'
  have hk' : (k : ℂ) ≠ 0 := Complex.ofReal_ne_zero.2 hk.ne'
  -- one transverse direction
  have d1 : ∀ (t x : ℝ), HasDerivAt (fun x' : ℝ => envelope k w0 (x' ^ 2 + t) s)
      (-(2 * (x : ℂ)) / (w0 ^ 2 * beamQ k w0 s) * envelope k w0 (x ^ 2 + t) s) x := by
    intro t x
    have h0 : HasDerivAt (fun x' : ℝ => ((x' ^ 2 + t : ℝ) : ℂ)) ((2 * x : ℝ) : ℂ) x := by
      have := ((hasDerivAt_pow 2 x).add_const t).ofReal_comp
      simpa using this
    have h1 : HasDerivAt (fun x' : ℝ => -((x' ^ 2 + t : ℝ) : ℂ) / (w0 ^ 2 * beamQ k w0 s))
        (-((2 * x : ℝ) : ℂ) / (w0 ^ 2 * beamQ k w0 s)) x := h0.neg.div_const _
    have h2 := (h1.cexp).const_mul (1 / beamQ k w0 s)
    refine h2.congr_deriv ?_
    rw [envelope]
    push_cast
    ring
  have d2 : ∀ (t x : ℝ), HasDerivAt (fun x' : ℝ => -(2 * (x' : ℂ)) / (w0 ^ 2 * beamQ k w0 s) * envelope k w0 (x' ^ 2 + t) s)
      ((-2 / (w0 ^ 2 * beamQ k w0 s) + (2 * (x : ℂ) / (w0 ^ 2 * beamQ k w0 s)) ^ 2) * envelope k w0 (x ^ 2 + t) s) x := by
    intro t x
    have h0 : HasDerivAt (fun x' : ℝ => -(2 * (x' : ℂ)) / (w0 ^ 2 * beamQ k w0 s)) (-(2 * 1) / (w0 ^ 2 * beamQ k w0 s)) x :=
      (((hasDerivAt_id x).ofReal_comp.const_mul (2 : ℂ)).neg).div_const _
    refine (h0.mul (d1 t x)).congr_deriv ?_
    ring
  have dxx : ∀ (t x : ℝ), deriv (fun x' : ℝ => deriv (fun x'' : ℝ => envelope k w0 (x'' ^ 2 + t) s) x') x =
      (-2 / (w0 ^ 2 * beamQ k w0 s) + (2 * (x : ℂ) / (w0 ^ 2 * beamQ k w0 s)) ^ 2) * envelope k w0 (x ^ 2 + t) s := by
    intro t x
    have : (fun x' : ℝ => deriv (fun x'' : ℝ => envelope k w0 (x'' ^ 2 + t) s) x') =
        fun x' : ℝ => -(2 * (x' : ℂ)) / (w0 ^ 2 * beamQ k w0 s) * envelope k w0 (x' ^ 2 + t) s := by
      funext x'; exact (d1 t x').deriv
    rw [this]
    exact (d2 t x).deriv
  have hyy : deriv (fun y' : ℝ => deriv (fun y'' : ℝ => envelope k w0 (x ^ 2 + y'' ^ 2) s) y') y =
      (-2 / (w0 ^ 2 * beamQ k w0 s) + (2 * (y : ℂ) / (w0 ^ 2 * beamQ k w0 s)) ^ 2) * envelope k w0 (x ^ 2 + y ^ 2) s := by
    have := dxx (x ^ 2) y
    simp only [add_comm _ (x ^ 2)] at this
    exact this
  -- along the beam
  have hqd : HasDerivAt (fun s' : ℝ => beamQ k w0 s') (-Complex.I * (2 / (k * w0 ^ 2))) s := by
    have h0 : HasDerivAt (fun s' : ℝ => ((2 * s' / (k * w0 ^ 2) : ℝ) : ℂ)) ((2 * 1 / (k * w0 ^ 2) : ℝ) : ℂ) s :=
      (((hasDerivAt_id s).const_mul 2).div_const _).ofReal_comp
    refine ((h0.const_mul Complex.I).const_sub 1).congr_deriv ?_
    push_cast
    ring
  have hs : HasDerivAt (fun s' : ℝ => envelope k w0 (x ^ 2 + y ^ 2) s')
      (-Complex.I * (2 / (k * w0 ^ 2)) * (-1 / beamQ k w0 s + ((x ^ 2 + y ^ 2 : ℝ) : ℂ) / (w0 ^ 2 * beamQ k w0 s ^ 2)) *
        envelope k w0 (x ^ 2 + y ^ 2) s) s := by
    have h1 : HasDerivAt (fun s' : ℝ => (beamQ k w0 s')⁻¹) (-(-Complex.I * (2 / (k * w0 ^ 2))) / beamQ k w0 s ^ 2) s := hqd.inv hq
    have h2 : HasDerivAt (fun s' : ℝ => -((x ^ 2 + y ^ 2 : ℝ) : ℂ) / w0 ^ 2 * (beamQ k w0 s')⁻¹)
        (-((x ^ 2 + y ^ 2 : ℝ) : ℂ) / w0 ^ 2 * (-(-Complex.I * (2 / (k * w0 ^ 2))) / beamQ k w0 s ^ 2)) s := h1.const_mul _
    have h3 := h1.mul h2.cexp
    have hfun : (fun s' : ℝ => envelope k w0 (x ^ 2 + y ^ 2) s') = ((fun s' : ℝ => (beamQ k w0 s')⁻¹) *
        fun s' : ℝ => Complex.exp (-((x ^ 2 + y ^ 2 : ℝ) : ℂ) / w0 ^ 2 * (beamQ k w0 s')⁻¹)) := by
      funext s'
      simp only [envelope, Pi.mul_apply]
      rw [one_div, div_mul_eq_div_div, div_eq_mul_inv _ (beamQ k w0 s')]
    rw [hfun]
    refine h3.congr_deriv ?_
    rw [envelope, div_mul_eq_div_div, div_eq_mul_inv _ (beamQ k w0 s)]
    field_simp
    ring
  rw [dxx, hyy, hs.deriv]
  have hI : 2 * Complex.I * k * (-Complex.I * (2 / (k * w0 ^ 2))) = 4 / (w0 : ℂ) ^ 2 := by
    field_simp
    linear_combination (-4 : ℂ) * Complex.I_sq
  rw [← mul_assoc, ← mul_assoc, hI]
  push_cast
  field_simp
  ring

/-- The radius of the beam at the distance `s`. -/
noncomputable def radius (k w0 s : ℝ) : ℝ := w0 * Real.sqrt (1 + (2 * s / (k * w0 ^ 2)) ^ 2)

theorem normSq_beamQ (k w0 s : ℝ) : ‖beamQ k w0 s‖ ^ 2 = 1 + (2 * s / (k * w0 ^ 2)) ^ 2 := by
  rw [← Complex.normSq_eq_norm_sq, Complex.normSq_apply, beamQ, Complex.sub_re, Complex.sub_im, Complex.re_mul_ofReal,
    Complex.im_mul_ofReal]
  simp only [Complex.one_re, Complex.one_im, Complex.I_re, Complex.I_im]
  ring

/-- C94: the intensity of a beam is a Gaussian of the radius `radius` around the axis, in every cross-section. -/
theorem beam_intensity (k w0 amp r2 s : ℝ) (hw : 0 < w0) : ‖beamAt k w0 amp r2 s‖ ^ 2 =
    amp ^ 2 * (w0 / radius k w0 s) ^ 2 * Real.exp (-2 * r2 / radius k w0 s ^ 2) := by
  have hs : 0 < 1 + (2 * s / (k * w0 ^ 2)) ^ 2 := by positivity
  have hN := normSq_beamQ k w0 s
  have hR : radius k w0 s ^ 2 = w0 ^ 2 * (1 + (2 * s / (k * w0 ^ 2)) ^ 2) := by rw [radius, mul_pow, Real.sq_sqrt hs.le]
  have hre : (-(r2 : ℂ) / (w0 ^ 2 * beamQ k w0 s)).re = -r2 / radius k w0 s ^ 2 := by
    rw [Complex.div_re, map_mul, Complex.normSq_eq_norm_sq (beamQ k w0 s), hN, hR]
    have h1 : Complex.normSq ((w0 : ℂ) ^ 2) = (w0 ^ 2) ^ 2 := by
      rw [← Complex.ofReal_pow, Complex.normSq_ofReal, ← sq]
    have h2 : ((w0 : ℂ) ^ 2 * beamQ k w0 s).re = w0 ^ 2 := by
      rw [← Complex.ofReal_pow, Complex.re_ofReal_mul, beamQ, Complex.sub_re, Complex.re_mul_ofReal]
      simp
    rw [h1, h2]
    simp only [Complex.neg_re, Complex.neg_im, Complex.ofReal_re, Complex.ofReal_im]
    field_simp
    ring
  have hph : ‖Complex.exp (-Complex.I * ((k * s : ℝ) : ℂ))‖ = 1 := by
    rw [Complex.norm_exp, Complex.re_mul_ofReal]; simp
  rw [beamAt, norm_mul, norm_mul, hph, mul_one, envelope, norm_mul, norm_div, norm_one, Complex.norm_exp, hre, Complex.norm_real,
    Real.norm_eq_abs, mul_pow, mul_pow, sq_abs, div_pow, one_pow, hN, div_pow w0, hR, ← Real.exp_nat_mul]
  rw [show (w0 ^ 2 / (w0 ^ 2 * (1 + (2 * s / (k * w0 ^ 2)) ^ 2))) = 1 / (1 + (2 * s / (k * w0 ^ 2)) ^ 2) from by field_simp]
  rw [mul_assoc]
  congr 3
  push_cast
  ring

/-- C94: a beam of the amplitude `beamAmp` carries the power one through every plane across it (`|E|² / (2 Z)` is the intensity in
a medium of the impedance `Z`). -/
theorem beam_power (k w0 imp s : ℝ) (hk : 0 < k) (hw : 0 < w0) (hi : 0 < imp) :
    ∫ x : ℝ, ∫ y : ℝ, ‖beamAt k w0 (beamAmp w0 imp) (x ^ 2 + y ^ 2) s‖ ^ 2 / (2 * imp) = 1 := by
  set w := radius k w0 s with hwd
  have hs : 0 < 1 + (2 * s / (k * w0 ^ 2)) ^ 2 := by positivity
  have hwp : 0 < w := mul_pos hw (Real.sqrt_pos.2 hs)
  have hpi := Real.pi_pos
  set C : ℝ := beamAmp w0 imp ^ 2 * (w0 / w) ^ 2 / (2 * imp) with hC
  have hfun : ∀ x y : ℝ, ‖beamAt k w0 (beamAmp w0 imp) (x ^ 2 + y ^ 2) s‖ ^ 2 / (2 * imp) =
      C * Real.exp (-(2 / w ^ 2) * x ^ 2) * Real.exp (-(2 / w ^ 2) * y ^ 2) := by
    intro x y
    rw [beam_intensity _ _ _ _ _ hw, ← hwd, mul_assoc C, ← Real.exp_add, hC]
    rw [show -2 * (x ^ 2 + y ^ 2) / w ^ 2 = -(2 / w ^ 2) * x ^ 2 + -(2 / w ^ 2) * y ^ 2 from by ring]
    ring
  simp only [hfun]
  simp only [MeasureTheory.integral_const_mul, integral_gaussian]
  rw [MeasureTheory.integral_mul_const, MeasureTheory.integral_const_mul, integral_gaussian, mul_assoc, ← sq, Real.sq_sqrt (by positivity), hC, beamAmp]
  rw [div_pow, mul_pow, mul_pow, Real.sq_sqrt hi.le, Real.sq_sqrt hpi.le]
  field_simp

/-- The hypotheses are met. -/
example : ∫ x : ℝ, ∫ y : ℝ, ‖beamAt 4 2 (beamAmp 2 (1 / 2)) (x ^ 2 + y ^ 2) 3‖ ^ 2 / (2 * (1 / 2)) = 1 :=
  beam_power 4 2 (1 / 2) 3 (by norm_num) (by norm_num) (by norm_num)

/-- C94: with the axis z, the field at a sample that lies at `center` is that of the focus. -/
theorem beam_center_z (g : EpsGrid sh) (mu : Option (FieldT sh)) (omega w0 : ℝ) (center : Fin 3 → ℝ) (sl : Slc) (m : Aim)
    (power : ℝ) (hm : m.Valid) (hω : 0 < omega) (he : 0 < epsVal g sl) (hw : 0 < w0) (fl : Fields sh)
    (h : vectorFields g mu omega 2 sl (gaussScalar omega m.polarity (epsVal g sl) w0 center) m power = some fl) (a : Fin 3) (c : Cell sh)
    (hc : ∀ b, g.xyz a b (c b).val = center b) :
    fl.E a c = (Real.sqrt power : ℂ) * (beamAmp w0 (Real.sqrt (1 / epsVal g sl)) : ℂ) * (polarization 2 m a : ℂ) := by
  obtain ⟨_, hE⟩ := gaussian_field g mu omega w0 center 2 sl m power hm hω he hw fl h a c
  simp only [] at hE
  have hr : (fun b => g.xyz a b (c b).val - center (wgRevOrder 2 b)) = 0 := by
    funext b
    rw [hc, show wgRevOrder 2 b = b from by revert b; decide, sub_self, Pi.zero_apply]
  rw [hE, hr]
  simp [beamAt, envelope, beamQ]

/-- The same cell, whose samples all lie at the point (1, 2, 3). -/
noncomputable def spot : EpsGrid ![1, 1, 2] := ⟨fun _ b _ => (![1, 2, 3] : Fin 3 → ℝ) b, ⟨fun _ _ => 1, fun _ _ => 1⟩, fun _ _ => 1⟩

theorem spot_eps : epsVal spot lower = 1 := by
  rw [epsVal_const spot lower 1 (fun _ _ => rfl) ⟨cell0, fun a => ?_⟩]
  · rfl
  · fin_cases a <;> exact ⟨Nat.zero_le _, by decide⟩

/-- C94, false as documented (`center` is the position of the focus on the grid): with the axis x the beam is elsewhere, because the entries of
`center` are used in the rolled order of the axes. A sample at `center` then has less than the field of the focus. -/
theorem beam_center_false : ∃ fl : Fields ![1, 1, 2],
    vectorFields spot none 1 0 lower (gaussScalar 1 ahead.polarity (epsVal spot lower) 1 ![1, 2, 3]) ahead 1 = some fl ∧
    (∀ a b i, spot.xyz a b i = (![1, 2, 3] : Fin 3 → ℝ) b) ∧ polarization 0 ahead 1 = 1 ∧
    ‖fl.E 1 cell0‖ < beamAmp 1 (Real.sqrt (1 / epsVal spot lower)) := by
  obtain ⟨fl, hfl⟩ := vectorFields_exists spot none 1 0 lower
    (gaussScalar 1 ahead.polarity (epsVal spot lower) 1 ![1, 2, 3]) ahead 1
  refine ⟨fl, hfl, fun _ _ _ => rfl, ?_, ?_⟩
  · rw [(heading_cases 0 ahead ahead_valid).2.2.1 rfl rfl]
    simp [unitVec]
  obtain ⟨_, hE⟩ := gaussian_field spot none 1 1 ![1, 2, 3] 0 lower ahead 1 ahead_valid one_pos (by rw [spot_eps]; norm_num)
    one_pos fl hfl 1 cell0
  simp only [] at hE
  have hr : (fun b => spot.xyz 1 b (cell0 b).val - (![1, 2, 3] : Fin 3 → ℝ) (wgRevOrder 0 b)) = ![-2, 1, 1] := by
    funext b
    show (![1, 2, 3] : Fin 3 → ℝ) b - _ = _
    fin_cases b
    · show (1 : ℝ) - (![1, 2, 3] : Fin 3 → ℝ) (wgRevOrder 0 0) = -2
      rw [show wgRevOrder 0 0 = 2 from by decide]
      show (1 : ℝ) - 3 = -2
      norm_num
    · show (2 : ℝ) - (![1, 2, 3] : Fin 3 → ℝ) (wgRevOrder 0 1) = 1
      rw [show wgRevOrder 0 1 = 0 from by decide]
      show (2 : ℝ) - 1 = 1
      norm_num
    · show (3 : ℝ) - (![1, 2, 3] : Fin 3 → ℝ) (wgRevOrder 0 2) = 1
      rw [show wgRevOrder 0 2 = 1 from by decide]
      show (3 : ℝ) - 2 = 1
      norm_num
  have hs : heading 0 ahead ⬝ᵥ ![-2, 1, 1] = -2 := by
    rw [(heading_cases 0 ahead ahead_valid).2.1 rfl, dot3]
    simp [unitVec, ahead]
  have hrr : (![-2, 1, 1] : Fin 3 → ℝ) ⬝ᵥ ![-2, 1, 1] = 6 := by rw [dot3]; norm_num [Matrix.cons_val_two]
  have hp : polarization 0 ahead 1 = 1 := by
    rw [(heading_cases 0 ahead ahead_valid).2.2.1 rfl rfl]
    simp [unitVec]
  rw [hr, hs, hrr, hp, Real.sqrt_one] at hE
  have hpos : 0 < beamAmp 1 (Real.sqrt (1 / epsVal spot lower)) := by
    have : 0 < Real.sqrt (1 / epsVal spot lower) := by rw [spot_eps]; norm_num
    rw [beamAmp]; positivity
  have hB := beam_intensity (1 * Real.sqrt (epsVal spot lower)) 1 (beamAmp 1 (Real.sqrt (1 / epsVal spot lower))) (6 - (-2) ^ 2) (-2) one_pos
  set w := radius (1 * Real.sqrt (epsVal spot lower)) 1 (-2) with hw
  have hw1 : 1 ≤ w := by
    rw [hw, radius, one_mul, Real.one_le_sqrt]
    exact le_add_of_nonneg_right (sq_nonneg _)
  have hlt : ‖fl.E 1 cell0‖ ^ 2 < beamAmp 1 (Real.sqrt (1 / epsVal spot lower)) ^ 2 := by
    rw [hE]
    simp only [Complex.ofReal_one, one_mul, mul_one] at hB ⊢
    rw [hB, mul_assoc]
    refine mul_lt_of_lt_one_right (by positivity) ?_
    have h1 : (1 / w) ^ 2 ≤ 1 := by
      rw [div_pow, one_pow, div_le_one (by positivity)]
      exact one_le_pow₀ hw1
    have h2 : Real.exp (-2 * (6 - (-2) ^ 2) / w ^ 2) < 1 := by
      rw [Real.exp_lt_one_iff, show -2 * (6 - (-2) ^ 2) / w ^ 2 = -(4 / w ^ 2) from by ring, neg_lt_zero]
      positivity
    calc (1 / w) ^ 2 * Real.exp (-2 * (6 - (-2) ^ 2) / w ^ 2) ≤ 1 * Real.exp (-2 * (6 - (-2) ^ 2) / w ^ 2) :=
          mul_le_mul_of_nonneg_right h1 (Real.exp_pos _).le
      _ < 1 := by rw [one_mul]; exact h2
  exact lt_of_pow_lt_pow_left₀ 2 hpos.le hlt

/-! ### The caller's slices -/

/-- C94, false: `build_gaussian_source` and `build_plane_wave_source` overwrite the list `slices` of the caller, so that a second call with
the same list and the polarity −1 puts the source one plane lower. -/
theorem reused_slices_false : ∃ (axis : Fin 3) (sl : Slc) (polarity : ℝ),
    planeIndex axis (slicesAfter axis sl polarity) polarity + 1 = planeIndex axis sl polarity ∧ sl.lo axis + 1 = sl.hi axis := by
  refine ⟨2, ⟨fun _ => 4, fun _ => 5⟩, -1, ?_, rfl⟩
  simp [planeIndex, slicesAfter]

/-! ### Normalisation by a simulation -/

/-- The power that a current gives to a field, summed over the cells of volume `dx³`. -/
noncomputable def radiated (dx : ℝ) (J E : FieldT sh) : ℝ := -(1 / 2) * (∑ a, ∑ c, (star (J a c) * E a c).re) * dx ^ 3

theorem curPower_eq (dx : ℝ) (J E : FieldT sh) : curPower dx J E = radiated dx J E := by
  have h : ∀ a, ∑ y, -(star (vecF J (a, y)) * vecF E (a, y)).re = -∑ c, (star (J a c) * E a c).re := fun a => by
    rw [← Finset.sum_neg_distrib, ← (cellEquiv sh).symm.sum_comp]
    rfl
  rw [curPower, radiated, Fintype.sum_prod_type, Finset.sum_congr rfl fun a _ => h a, Finset.sum_neg_distrib]
  ring

theorem curPower_scale (dx s : ℝ) (J E : FieldT sh) :
    curPower dx (fun a c => (s : ℂ) * J a c) (fun a c => (s : ℂ) * E a c) = s ^ 2 * curPower dx J E := by
  have h : ∀ p : Fin 3 × Fin sh.size, -((star (vecF (fun a c => (s : ℂ) * J a c) p) * vecF (fun a c => (s : ℂ) * E a c) p).re) =
      s ^ 2 * -((star (vecF J p) * vecF E p).re) := by
    intro p
    have : star (vecF (fun a c => (s : ℂ) * J a c) p) * vecF (fun a c => (s : ℂ) * E a c) p =
        ((s ^ 2 : ℝ) : ℂ) * (star (vecF J p) * vecF E p) := by
      simp only [vecF, star_mul', Complex.star_def, Complex.conj_ofReal]
      push_cast
      ring
    rw [this, Complex.re_ofReal_mul]
    ring
  rw [curPower, curPower, Finset.sum_congr rfl fun p _ => h p, ← Finset.mul_sum]
  ring

theorem sourceEps_scale (s : ℝ) (hs : 0 < s) (J eps : FieldT sh) : sourceEps (fun a c => (s : ℂ) * J a c) eps = sourceEps J eps := by
  have h : ∀ p : Fin 3 × Fin sh.size, (‖vecF (fun a c => (s : ℂ) * J a c) p‖ : ℂ) = s * (‖vecF J p‖ : ℂ) := by
    intro p
    simp only [vecF, norm_mul, Complex.norm_real, Real.norm_eq_abs, abs_of_pos hs]
    push_cast
    rfl
  have hs' : (s : ℂ) ≠ 0 := Complex.ofReal_ne_zero.2 hs.ne'
  rw [sourceEps, sourceEps]
  simp only [h, mul_assoc]
  rw [← Finset.mul_sum, ← Finset.mul_sum, mul_div_mul_left _ _ hs']

/-- C94: with a solver whose field is proportional to the source, the normalised source emits the power that was asked for, and it is a
non-negative multiple of the given source. -/
theorem normalized_power (solve : ℂ → FieldT sh → FieldT sh)
    (hlin : ∀ (e : ℂ) (s : ℝ) (J : FieldT sh), solve e (fun a c => (s : ℂ) * J a c) = fun a c => (s : ℂ) * solve e J a c)
    (dx power : ℝ) (eps J J' : FieldT sh) (h : normalizeBySim solve dx power eps J = some J') :
    radiated dx J' (solve (sourceEps J' eps) J') = power ∧ ∃ s : ℝ, 0 ≤ s ∧ J' = fun a c => (s : ℂ) * J a c := by
  simp only [normalizeBySim] at h
  split at h
  · exact absurd h (by simp)
  rename_i hn
  rw [not_or, not_lt] at hn
  obtain ⟨h0, h1⟩ := hn
  have hJ := (Option.some.inj h).symm
  subst hJ
  refine ⟨?_, _, Real.sqrt_nonneg _, rfl⟩
  rw [← curPower_eq, hlin, curPower_scale, Real.sq_sqrt h1]
  rcases h1.eq_or_lt with h2 | h2
  · rw [← h2, zero_mul]
    rcases div_eq_zero_iff.1 h2.symm with h3 | h3
    · exact h3.symm
    · exact absurd h3 h0
  · rw [sourceEps_scale _ (Real.sqrt_pos.2 h2), div_mul_cancel₀ _ h0]

/-- C94: the normalisation succeeds exactly if the simulated power is not zero and has the sign of the power asked for. -/
theorem normalized_exists (solve : ℂ → FieldT sh → FieldT sh) (dx power : ℝ) (eps J : FieldT sh) :
    (normalizeBySim solve dx power eps J).isSome = true ↔
      radiated dx J (solve (sourceEps J eps) J) ≠ 0 ∧ 0 ≤ power / radiated dx J (solve (sourceEps J eps) J) := by
  rw [← curPower_eq]
  simp only [normalizeBySim]
  split
  · rename_i h
    simp only [Option.isSome_none, Bool.false_eq_true, false_iff, not_and_or, not_not, not_le, ne_eq]
    exact h
  · rename_i h
    simp only [Option.isSome_some, true_iff]
    rw [not_or, not_lt] at h
    exact h

/-- The hypotheses are met: a solver that answers every current with the opposite field, and any current that is not zero. -/
example (eps J : FieldT sh) (hJ : ∃ a c, J a c ≠ 0) :
    (normalizeBySim (fun _ J a c => -J a c) 1 2 eps J).isSome = true ∧
      ∀ (e : ℂ) (s : ℝ) (J : FieldT sh), (fun (_ : ℂ) (J : FieldT sh) a c => -J a c) e (fun a c => (s : ℂ) * J a c) =
        fun a c => (s : ℂ) * (fun (_ : ℂ) (J : FieldT sh) a c => -J a c) e J a c := by
  have hpos : 0 < curPower 1 J (fun a c => -J a c) := by
    obtain ⟨a, c, hac⟩ := hJ
    have ht : ∀ p : Fin 3 × Fin sh.size, -((star (vecF J p) * vecF (fun a c => -J a c) p).re) = ‖vecF J p‖ ^ 2 := by
      intro p
      rw [show vecF (fun a c => -J a c) p = -vecF J p from rfl, mul_neg, Complex.neg_re, neg_neg, Complex.star_def,
        ← Complex.normSq_eq_conj_mul_self, Complex.ofReal_re, Complex.normSq_eq_norm_sq]
    rw [curPower, Finset.sum_congr rfl fun p _ => ht p]
    have : 0 < ∑ p : Fin 3 × Fin sh.size, ‖vecF J p‖ ^ 2 := by
      refine Finset.sum_pos' (fun p _ => sq_nonneg _) ⟨(a, pos c), Finset.mem_univ _, ?_⟩
      rw [show vecF J (a, pos c) = J a c from by simp [vecF]]
      have := norm_pos_iff.2 hac
      positivity
    linarith
  refine ⟨(normalized_exists _ _ _ _ _).2 ⟨by rw [← curPower_eq]; exact hpos.ne', by rw [← curPower_eq]; positivity⟩, fun e s J => ?_⟩
  funext a c
  ring

/-- C94: the simulation that normalises a source is done in the permittivity at the source, if that is the same at every point of it. -/
theorem sourceEps_const (J eps : FieldT sh) (e : ℂ) (hJ : ∃ a c, J a c ≠ 0) (he : ∀ a c, J a c ≠ 0 → eps a c = e) : sourceEps J eps = e := by
  have h : ∀ p : Fin 3 × Fin sh.size, (‖vecF J p‖ : ℂ) * vecF eps p = (‖vecF J p‖ : ℂ) * e := by
    intro p
    by_cases hp : vecF J p = 0
    · rw [hp]; simp
    · rw [show vecF eps p = e from he _ _ hp]
  obtain ⟨a, c, hac⟩ := hJ
  have hpos : 0 < ∑ p : Fin 3 × Fin sh.size, ‖vecF J p‖ := by
    refine Finset.sum_pos' (fun p _ => norm_nonneg _) ⟨(a, pos c), Finset.mem_univ _, norm_pos_iff.2 ?_⟩
    rw [show vecF J (a, pos c) = J a c from by simp [vecF]]
    exact hac
  rw [sourceEps, Finset.sum_congr rfl fun p _ => h p, ← Finset.sum_mul, mul_comm, mul_div_assoc, div_self, mul_one]
  rw [← Complex.ofReal_sum]
  exact Complex.ofReal_ne_zero.2 hpos.ne'

/-! ### Dipoles -/

/-- C94: a dipole is a current in one component of one cell. -/
theorem dipole_support (omega : ℝ) (d : Dxes) (eps : FieldT sh) (position : Cell sh) (axis : Fin 3) (power : ℝ) (phase : ℂ)
    (a : Fin 3) (c : Cell sh) (h : ¬(a = axis ∧ c = position)) : dipoleSource omega d eps position axis power phase a c = 0 := by
  simp only [dipoleSource, if_neg h]

/-- C94: in a medium of positive permittivity the current of a dipole has the phase of `phase`, and its strength is
`√(power / (0.0266… ω² Δ³)) / ε` with the cell width `Δ` along its axis. -/
theorem dipole_value (omega : ℝ) (d : Dxes) (eps : FieldT sh) (position : Cell sh) (axis : Fin 3) (power : ℝ) (phase : ℂ)
    (width e : ℝ) (hd : d.e axis (position axis).val = (width : ℂ)) (hw : 0 < width) (hω : 0 < omega) (he : 0 < e) (hp : 0 ≤ power)
    (hph : phase ≠ 0) (hE : eps axis position = (e : ℂ)) :
    dipoleSource omega d eps position axis power phase axis position =
      ((Real.sqrt (power / (0.02661928208866846 * omega ^ 2 * width ^ 3)) / e : ℝ) : ℂ) * (phase / (‖phase‖ : ℂ)) := by
  have hq : (0 : ℝ) ≤ 0.02661928208866846 * omega ^ 2 * width ^ 3 := by positivity
  have hnp : npSqrt (0.02661928208866846 * ((omega : ℂ) ^ 2 * (width : ℂ) ^ 3)) =
      ((Real.sqrt (0.02661928208866846 * omega ^ 2 * width ^ 3) : ℝ) : ℂ) := by
    have h1 : (0.02661928208866846 * ((omega : ℂ) ^ 2 * (width : ℂ) ^ 3)) =
        ((0.02661928208866846 * omega ^ 2 * width ^ 3 : ℝ) : ℂ) := by push_cast; ring
    have h2 : (2⁻¹ : ℂ) = ((1 / 2 : ℝ) : ℂ) := by push_cast; ring
    rw [h1, npSqrt, h2, ← Complex.ofReal_cpow hq, Real.sqrt_eq_rpow]
  simp only [dipoleSource, and_self, if_true, hd, hE, hnp]
  rw [Real.sqrt_div hp]
  push_cast
  ring

end Verif.Fdfd.FreeSpace
