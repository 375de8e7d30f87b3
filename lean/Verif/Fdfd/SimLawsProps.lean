import Verif.Fdfd.SimLaws
import Verif.Fdfd.EmChainProps
import Verif.Fdfd.PlanePowerProps
/-
Property C124: the fields a simulation returns obey the laws of Maxwell's equations that users rely on: superposition,
reciprocity (also between Bloch vectors `k` and `-k`), the power balance, time reversal, independence of the unit of length and
translation along periodic axes.
-/
namespace Verif.Fdfd.Laws
open Matrix
set_option linter.unusedSectionVars false
variable {sh : Shape}

/-! ### Specification -/

/-- The simulation is not on a resonance: its equations have exactly one solution for every source. -/
def OffResonance (c : SimCfg sh) (eps : VField sh.size) : Prop := ∃ A, waveOp c eps = some A ∧ IsUnit A.det

/-- The cell widths the equations are written with: those of the grid, complex inside the absorbing layers. -/
noncomputable def mesh (c : SimCfg sh) : Dxes :=
  ((applyScpml c.hp c.dx c.pml c.omega).map fun g => gridOf g.1 g.2).getD ⟨fun _ _ => 0, fun _ _ => 0⟩

/-- The volume around component `a` of the electric field of the cell `r`. -/
noncomputable def volume (d : Dxes) (a : Fin 3) (r : Cell sh) : ℂ := ∏ b, if b = a then d.e b (r b) else d.h b (r b)

/-- The integral of `F · G` over the grid. -/
noncomputable def integral (d : Dxes) (F G : VField sh.size) : ℂ :=
  ∑ a, ∑ r : Cell sh, volume d a r * (asField F a r * asField G a r)

/-- The same simulation with another source. -/
def withSource (c : SimCfg sh) (J : VField sh.size) : SimCfg sh := { c with J := J }

/-- The same simulation with the opposite Bloch vector. -/
def reversed (c : SimCfg sh) : SimCfg sh := { c with bloch := c.bloch.map fun k a => -k a }

/-- The same simulation with all lengths multiplied by `s`: the cell widths, the wavelength and the reciprocal of the Bloch
vector. The absorbing layers keep their numbers of cells. -/
noncomputable def scaled (s : ℝ) (c : SimCfg sh) : SimCfg sh :=
  { c with hp := ⟨c.hp.arrays.map fun v => v.map ((s : ℂ) * ·), c.hp.rows⟩, wlen := s * c.wlen,
           bloch := c.bloch.map fun k a => k a / s }

/-- Primal and dual cells add up to the same length along the axes with a Bloch phase. -/
def SamePeriod (c : SimCfg sh) : Prop := ∀ a, c.bloch.getD 0 a ≠ 0 →
  ((List.range (sh a)).map ((mesh c).e a)).sum = ((List.range (sh a)).map ((mesh c).h a)).sum

/-- No absorbing layers. -/
def NoLayers (c : SimCfg sh) : Prop := ∀ a front, thickness c.pml a front ≤ 0

/-- The cell lies outside the absorbing layers. -/
def Outside (c : SimCfg sh) (r : Cell sh) : Prop :=
  ∀ a, thickness c.pml a true ≤ ((r a).val : Int) ∧ ((r a).val : Int) + thickness c.pml a false < sh a

/-- The current of a dipole: component `a` in the cell `r`. -/
noncomputable def dipole (a : Fin 3) (r : Cell sh) : VField sh.size := Pi.single (a, pos r) 1

/-! ### Lemmas -/

theorem mesh_spec {c : SimCfg sh} (h : GoodSim c) : ∃ g, applyScpml c.hp c.dx c.pml c.omega = some g ∧
    mesh c = gridOf g.1 g.2 ∧ NonzeroGrid sh (mesh c) ∧
    ∀ eps, waveOp c eps = eFull sh c.omega (mesh c) eps none none none (c.bloch.getD 0) 0 := by
  have hdef := (pml_defined c.hp c.dx c.pml c.omega h.alloc).2 (fun a f => by
    have := h.layers a
    cases f <;> omega)
  obtain ⟨⟨hp', dx'⟩, happ⟩ := Option.isSome_iff_exists.1 hdef
  have hm : mesh c = gridOf hp' dx' := by rw [mesh, happ]; rfl
  refine ⟨(hp', dx'), happ, hm, ?_, fun eps => by rw [waveOp, happ, hm]; rfl⟩
  intro a i hi
  rw [hm]
  exact stretched_nonzero c.hp c.dx c.pml c.omega h.alloc h.grid (omega_pos h.wlen) h.layers happ a i
    (by rw [h.shape] at hi; exact hi)

theorem mesh_outside {c : SimCfg sh} (h : GoodSim c) (a : Fin 3) (i : Nat) (h1 : thickness c.pml a true ≤ i)
    (h2 : i + thickness c.pml a false < sh a) :
    (mesh c).e a i = (gridOf c.hp c.dx).e a i ∧ (mesh c).h a i = (gridOf c.hp c.dx).h a i := by
  obtain ⟨⟨hp', dx'⟩, happ, hm, _, _⟩ := mesh_spec h
  obtain ⟨_, _, hall⟩ := pml_outside_unchanged c.hp c.dx c.pml c.omega h.alloc happ a
  have := hall i h1 (by rw [← h.shape]; exact h2)
  rw [hm]
  constructor
  · show (hp'.read dx'.e a).getD i 0 = (c.hp.read c.dx.e a).getD i 0
    rw [List.getD_eq_getElem?_getD, List.getD_eq_getElem?_getD, this.1]
  · show (hp'.read dx'.h a).getD i 0 = (c.hp.read c.dx.h a).getD i 0
    rw [List.getD_eq_getElem?_getD, List.getD_eq_getElem?_getD, this.2]

theorem mesh_noLayers {c : SimCfg sh} (h : GoodSim c) (hn : NoLayers c) : mesh c = gridOf c.hp c.dx := by
  obtain ⟨hp', dx', happ, he, hh⟩ := pml_zero_thickness c.hp c.dx c.pml c.omega h.alloc hn
  have : mesh c = gridOf hp' dx' := by rw [mesh, happ]; rfl
  rw [this, gridOf, gridOf]
  simp only [he, hh]

theorem grid_real {c : SimCfg sh} (h : GoodSim c) :
    (∀ a i, star ((gridOf c.hp c.dx).e a i) = (gridOf c.hp c.dx).e a i) ∧
    (∀ a i, star ((gridOf c.hp c.dx).h a i) = (gridOf c.hp c.dx).h a i) := by
  have key : ∀ (l : List ℂ) (i : Nat), (∀ x ∈ l, x.im = 0 ∧ 0 < x.re) → star (l.getD i 0) = l.getD i 0 := by
    intro l i hl
    rw [List.getD_eq_getElem?_getD]
    cases hx : l[i]? with
    | none => exact star_zero ℂ
    | some x => exact Complex.conj_eq_iff_im.2 (hl x (List.mem_of_getElem? hx)).1
  exact ⟨fun a i => key _ _ (h.grid.e_pos a), fun a i => key _ _ (h.grid.h_pos a)⟩

theorem integral_eq (d : Dxes) (F G : VField sh.size) : integral d F G = ∑ p, pSquared sh d p * (F p * G p) := by
  rw [Fintype.sum_prod_type, integral]
  apply Finset.sum_congr rfl
  intro a _
  rw [sum_pos]
  apply Finset.sum_congr rfl
  intro r _
  rw [pSquared_apply]
  rfl

/-- What a simulation off resonance returns. -/
theorem solution {c : SimCfg sh} (h : GoodSim c) {eps : VField sh.size} {A : Mat3 sh.size} (hA : waveOp c eps = some A)
    (hu : IsUnit A.det) (J : VField sh.size) : ∃ E, simFields (withSource c J) eps = some E ∧
      A *ᵥ E = (-Complex.I * c.omega) • J ∧ ∀ E', A *ᵥ E' = (-Complex.I * c.omega) • J → E' = E := by
  obtain ⟨K, hK, hs⟩ := sim_system h
  have hKA : K - c.omega ^ 2 • Matrix.diagonal eps = A := by
    have := hK eps
    rw [hA] at this
    exact (Option.some.inj this).symm
  obtain ⟨E, hE, hsol⟩ := hs eps J false
  rw [hKA] at hsol
  have huniq := solves_unique hu hsol
  refine ⟨E, hE, ?_, fun E' hE' => ?_⟩
  · rw [huniq, Matrix.mulVec_mulVec, Matrix.mul_nonsing_inv _ hu, Matrix.one_mulVec]
  · rw [huniq, ← hE', Matrix.mulVec_mulVec, Matrix.nonsing_inv_mul _ hu, Matrix.one_mulVec]

theorem good_reversed {c : SimCfg sh} (h : GoodSim c) : GoodSim (reversed c) :=
  ⟨h.shape, h.alloc, h.grid, h.layers, h.wlen, h.exact⟩

theorem bloch_reversed (c : SimCfg sh) : (reversed c).bloch.getD 0 = -(c.bloch.getD 0) := by
  show (c.bloch.map fun k a => -k a).getD 0 = _
  cases c.bloch with
  | none => exact neg_zero.symm
  | some k => rfl

/-- The wave operator for `-k` is the transpose of the one for `k` with respect to the volumes. -/
theorem waveOp_transpose {c : SimCfg sh} (h : GoodSim c) (hp : SamePeriod c) {eps : VField sh.size} {A A' : Mat3 sh.size}
    (hA : waveOp c eps = some A) (hA' : waveOp (reversed c) eps = some A') :
    Matrix.diagonal (pSquared sh (mesh c)) * A' = (Matrix.diagonal (pSquared sh (mesh c)) * A)ᵀ := by
  obtain ⟨_, _, _, hnz, hw⟩ := mesh_spec h
  obtain ⟨_, _, _, _, hw'⟩ := mesh_spec (good_reversed h)
  have hmesh : mesh (reversed c) = mesh c := rfl
  rw [hw] at hA
  rw [hw', bloch_reversed, hmesh] at hA'
  have homega : (reversed c).omega = c.omega := rfl
  rw [homega] at hA'
  set k := c.bloch.getD 0 with hk
  set d := mesh c with hd
  have he : ∀ a i, i < sh a → d.e a i ≠ 0 := fun a i h => (hnz a i h).1
  have hh : ∀ a i, i < sh a → d.h a i ≠ 0 := fun a i h => (hnz a i h).2
  have hphase : ∀ a, axisPhase sh d.e k a = axisPhase sh d.h k a := by
    intro a
    by_cases hka : k a = 0
    · rw [axisPhase, axisPhase, hka, mul_zero, mul_zero]
    · rw [axisPhase, axisPhase, hp a hka]
  have hphase' : ∀ a, axisPhase sh d.e (-k) a = axisPhase sh d.h (-k) a := by
    intro a
    have := hphase a
    rw [axisPhase, axisPhase] at this ⊢
    rw [Pi.neg_apply, mul_neg, mul_neg, this]
  obtain ⟨⟨ce, hce⟩, ⟨ch, hch⟩⟩ := curl_defined sh d k
  obtain ⟨⟨ce', hce'⟩, ⟨ch', hch'⟩⟩ := curl_defined sh d (-k)
  have h1 := curl_transpose d k he hh hphase ce' ch hce' hch
  have h2 := curl_transpose d (-k) he hh hphase' ce ch' (by rw [neg_neg]; exact hce) hch'
  rw [eFull, hce, hch] at hA
  rw [eFull, hce', hch'] at hA'
  simp only [Option.bind_some, Option.map_some, Option.some.injEq, maskMat, invMat, Matrix.mul_one, Matrix.one_mul] at hA hA'
  subst hA hA'
  rw [Matrix.mul_sub, Matrix.mul_sub, ← Matrix.mul_assoc, ← Matrix.mul_assoc, h1, h2, Matrix.transpose_sub,
    Matrix.transpose_mul, Matrix.transpose_mul, Matrix.transpose_transpose, Matrix.diagonal_transpose, Matrix.mul_smul,
    Matrix.transpose_smul, Matrix.diagonal_mul_diagonal, Matrix.diagonal_transpose, Matrix.mul_assoc]

theorem reversed_off {c : SimCfg sh} (h : GoodSim c) (hp : SamePeriod c) {eps : VField sh.size} (ho : OffResonance c eps) :
    OffResonance (reversed c) eps := by
  obtain ⟨A, hA, hu⟩ := ho
  obtain ⟨_, _, _, hnz, _⟩ := mesh_spec h
  obtain ⟨_, _, _, _, hw'⟩ := mesh_spec (good_reversed h)
  obtain ⟨A', hA'⟩ := eFull_defined sh (reversed c).omega (mesh (reversed c)) eps none none none ((reversed c).bloch.getD 0)
  rw [← hw'] at hA'
  refine ⟨A', hA', ?_⟩
  have ht := congrArg Matrix.det (waveOp_transpose h hp hA hA')
  rw [Matrix.det_transpose, Matrix.det_mul, Matrix.det_mul] at ht
  have hP : (Matrix.diagonal (pSquared sh (mesh c))).det ≠ 0 := by
    rw [Matrix.det_diagonal]
    exact Finset.prod_ne_zero_iff.2 fun p _ =>
      pSquared_ne (mesh c) (fun a i h => (hnz a i h).1) (fun a i h => (hnz a i h).2) p
  rw [mul_left_cancel₀ hP ht]
  exact hu

theorem omega_ne {c : SimCfg sh} (h : GoodSim c) : c.omega ≠ 0 := by
  intro h0
  have := omega_pos (c := c) h.wlen
  rw [h0] at this
  exact lt_irrefl _ this

/-- The power balance of a system whose curl part is Hermitian. -/
theorem power_core {n : Nat} {P D eps E J : VField n} {ce A : Mat3 n} {w : ℝ} (hw : w ≠ 0) (hP : ∀ p, (P p).im = 0)
    (hD : ∀ p, (D p).im = 0)
    (hform : Matrix.diagonal P * A = (ce.map star)ᵀ * Matrix.diagonal D * ce - (w : ℂ) ^ 2 • Matrix.diagonal fun p => P p * eps p)
    (s : A *ᵥ E = (-Complex.I * (w : ℂ)) • J) :
    (∑ p, P p * ((star J) p * E p)).re = w * ∑ p, (P p).re * (eps p).im * Complex.normSq (E p) := by
  have hns : ∀ z : ℂ, star z * z = ((Complex.normSq z : ℝ) : ℂ) := fun z => Complex.normSq_eq_conj_mul_self.symm
  have h1 : star E ⬝ᵥ ((ce.map star)ᵀ * Matrix.diagonal D * ce) *ᵥ E = ∑ p, D p * ((Complex.normSq ((ce *ᵥ E) p) : ℝ) : ℂ) := by
    have hst : star E ᵥ* (ce.map star)ᵀ = star (ce *ᵥ E) := by
      rw [Matrix.vecMul_transpose]
      funext p
      show ∑ q, star (ce p q) * star (E q) = star (∑ q, ce p q * E q)
      rw [star_sum]
      exact Finset.sum_congr rfl fun q _ => (star_mul' _ _).symm
    rw [Matrix.mul_assoc, ← Matrix.mulVec_mulVec, ← Matrix.mulVec_mulVec, Matrix.dotProduct_mulVec, hst]
    generalize ce *ᵥ E = F
    show ∑ p, star (F p) * (Matrix.diagonal D *ᵥ F) p = _
    apply Finset.sum_congr rfl
    intro p _
    rw [Matrix.mulVec_diagonal, ← hns]
    ring
  have h2 : star E ⬝ᵥ (Matrix.diagonal fun p => P p * eps p) *ᵥ E = ∑ p, P p * (eps p * ((Complex.normSq (E p) : ℝ) : ℂ)) := by
    show ∑ p, star (E p) * ((Matrix.diagonal fun p => P p * eps p) *ᵥ E) p = _
    apply Finset.sum_congr rfl
    intro p _
    rw [Matrix.mulVec_diagonal, ← hns]
    ring
  set R : ℂ := ∑ p, P p * ((star J) p * E p) with hR
  have h3 : star E ⬝ᵥ (Matrix.diagonal P * A) *ᵥ E = -Complex.I * (w : ℂ) * star R := by
    rw [← Matrix.mulVec_mulVec, s, Matrix.mulVec_smul, dotProduct_smul, smul_eq_mul, hR, star_sum]
    congr 1
    show ∑ p, star (E p) * (Matrix.diagonal P *ᵥ J) p = _
    apply Finset.sum_congr rfl
    intro p _
    have : star (P p) = P p := Complex.conj_eq_iff_im.2 (hP p)
    rw [Matrix.mulVec_diagonal, star_mul', star_mul', this, Pi.star_apply, star_star]
    ring
  rw [hform, Matrix.sub_mulVec, dotProduct_sub, Matrix.smul_mulVec, dotProduct_smul, smul_eq_mul, h1, h2] at h3
  have him := congrArg Complex.im h3
  have hl : (-Complex.I * (w : ℂ) * star R).im = -(w * R.re) := by
    have : star R = ⟨R.re, -R.im⟩ := rfl
    rw [this]
    simp [Complex.mul_im]
  have hr1 : (∑ p, D p * ((Complex.normSq ((ce *ᵥ E) p) : ℝ) : ℂ)).im = 0 := by
    rw [Complex.im_sum]
    apply Finset.sum_eq_zero
    intro p _
    rw [Complex.im_mul_ofReal, hD, zero_mul]
  have hr2 : ((w : ℂ) ^ 2 * ∑ p, P p * (eps p * ((Complex.normSq (E p) : ℝ) : ℂ))).im =
      w ^ 2 * ∑ p, (P p).re * (eps p).im * Complex.normSq (E p) := by
    rw [← Complex.ofReal_pow, Complex.im_ofReal_mul, Complex.im_sum]
    congr 1
    apply Finset.sum_congr rfl
    intro p _
    rw [← mul_assoc, Complex.im_mul_ofReal, Complex.mul_im, hP p]
    ring
  rw [hl, Complex.sub_im, hr1, hr2, zero_sub, neg_inj] at him
  have : w * R.re = w * (w * ∑ p, (P p).re * (eps p).im * Complex.normSq (E p)) := by
    rw [← him]; ring
  exact mul_left_cancel₀ hw this

/-! ### Theorems -/

/-- Superposition: the fields of a combination of currents are the combination of their fields. -/
theorem superposition {c : SimCfg sh} (h : GoodSim c) {eps : VField sh.size} (ho : OffResonance c eps) (J₁ J₂ : VField sh.size)
    (x y : ℂ) : ∃ E₁ E₂, simFields (withSource c J₁) eps = some E₁ ∧ simFields (withSource c J₂) eps = some E₂ ∧
      simFields (withSource c (x • J₁ + y • J₂)) eps = some (x • E₁ + y • E₂) := by
  obtain ⟨A, hA, hu⟩ := ho
  obtain ⟨E₁, h1, s1, _⟩ := solution h hA hu J₁
  obtain ⟨E₂, h2, s2, _⟩ := solution h hA hu J₂
  obtain ⟨E, h3, _, s3⟩ := solution h hA hu (x • J₁ + y • J₂)
  refine ⟨E₁, E₂, h1, h2, ?_⟩
  rw [h3, s3 (x • E₁ + y • E₂)]
  rw [Matrix.mulVec_add, Matrix.mulVec_smul, Matrix.mulVec_smul, s1, s2, smul_add, smul_comm x, smul_comm y]

/-- Reciprocity, for every grid, wavelength, permittivity and absorbing layer: the first current against the field of the
second, with the Bloch vector reversed, is the second current against the field of the first. -/
theorem reciprocity {c : SimCfg sh} (h : GoodSim c) (hp : SamePeriod c) {eps : VField sh.size} (ho : OffResonance c eps)
    (J₁ J₂ : VField sh.size) : ∃ E₁ E₂, simFields (withSource c J₁) eps = some E₁ ∧
      simFields (withSource (reversed c) J₂) eps = some E₂ ∧ integral (mesh c) J₂ E₁ = integral (mesh c) J₁ E₂ := by
  obtain ⟨A', hA', hu'⟩ := reversed_off h hp ho
  obtain ⟨A, hA, hu⟩ := ho
  obtain ⟨E₁, h1, s1, _⟩ := solution h hA hu J₁
  obtain ⟨E₂, h2, s2, _⟩ := solution (good_reversed h) hA' hu' J₂
  refine ⟨E₁, E₂, h1, h2, ?_⟩
  have ht := waveOp_transpose h hp hA hA'
  have homega : (reversed c).omega = c.omega := rfl
  rw [homega] at s2
  rw [integral_eq, integral_eq]
  set P := pSquared sh (mesh c) with hP
  have e1 : (Matrix.diagonal P * A) *ᵥ E₁ ⬝ᵥ E₂ = E₁ ⬝ᵥ (Matrix.diagonal P * A') *ᵥ E₂ := by
    rw [ht, dotProduct_comm, Matrix.dotProduct_mulVec, dotProduct_comm, Matrix.mulVec_transpose]
  rw [← Matrix.mulVec_mulVec, ← Matrix.mulVec_mulVec, s1, s2, Matrix.mulVec_smul, Matrix.mulVec_smul, smul_dotProduct,
    dotProduct_smul] at e1
  have hne : -Complex.I * c.omega ≠ 0 := mul_ne_zero (neg_ne_zero.2 Complex.I_ne_zero) (omega_ne h)
  have e2 := mul_left_cancel₀ hne e1
  simp only [dotProduct, Matrix.mulVec_diagonal] at e2
  calc ∑ p, P p * (J₂ p * E₁ p) = ∑ p, E₁ p * (P p * J₂ p) := Finset.sum_congr rfl fun p _ => by ring
    _ = ∑ p, P p * J₁ p * E₂ p := e2.symm
    _ = ∑ p, P p * (J₁ p * E₂ p) := Finset.sum_congr rfl fun p _ => by ring

/-- Source and detector can be exchanged: on a uniform grid without Bloch vector, for two dipoles outside the absorbing layers,
the component of the field of the first at the second is that of the field of the second at the first. -/
theorem exchange {c : SimCfg sh} (h : GoodSim c) (hb : c.bloch = none) {eps : VField sh.size} (ho : OffResonance c eps)
    (w : Fin 3 → ℂ) (hw : ∀ a i, i < sh a → (gridOf c.hp c.dx).e a i = w a ∧ (gridOf c.hp c.dx).h a i = w a)
    (a₁ a₂ : Fin 3) (r₁ r₂ : Cell sh) (h₁ : Outside c r₁) (h₂ : Outside c r₂) :
    ∃ E₁ E₂, simFields (withSource c (dipole a₁ r₁)) eps = some E₁ ∧ simFields (withSource c (dipole a₂ r₂)) eps = some E₂ ∧
      asField E₁ a₂ r₂ = asField E₂ a₁ r₁ := by
  have hp : SamePeriod c := fun a hk => absurd (by rw [hb]; rfl) hk
  obtain ⟨E₁, E₂, e1, e2, hr⟩ := reciprocity h hp ho (dipole a₁ r₁) (dipole a₂ r₂)
  have hrev : reversed c = c := by
    cases c
    simp only [reversed] at hb ⊢
    rw [hb]
    rfl
  rw [hrev] at e2
  refine ⟨E₁, E₂, e1, e2, ?_⟩
  obtain ⟨_, _, _, hnz, _⟩ := mesh_spec h
  have hvol : ∀ (a : Fin 3) (r : Cell sh), Outside c r → pSquared sh (mesh c) (a, pos r) = ∏ b, w b := by
    intro a r hr
    rw [pSquared_apply]
    apply Finset.prod_congr rfl
    intro b _
    obtain ⟨g1, g2⟩ := mesh_outside h b (r b).val (hr b).1 (hr b).2
    obtain ⟨g3, g4⟩ := hw b (r b).val (r b).isLt
    split
    · rw [g1, g3]
    · rw [g2, g4]
  have hpt : ∀ (a : Fin 3) (r : Cell sh) (E : VField sh.size), Outside c r →
      integral (mesh c) (dipole a r) E = (∏ b, w b) * asField E a r := by
    intro a r E hr
    rw [integral_eq, Finset.sum_eq_single (a, pos r)]
    · rw [hvol a r hr, dipole, Pi.single_eq_same, one_mul]
      rfl
    · intro p _ hne
      rw [dipole, Pi.single_eq_of_ne hne, zero_mul, mul_zero]
    · intro hn
      exact absurd (Finset.mem_univ _) hn
  rw [hpt a₂ r₂ E₁ h₂, hpt a₁ r₁ E₂ h₁] at hr
  have hne : ∏ b, w b ≠ 0 := by
    rw [← hvol a₁ r₁ h₁]
    exact pSquared_ne (mesh c) (fun a i h => (hnz a i h).1) (fun a i h => (hnz a i h).2) _
  exact mul_left_cancel₀ hne hr

/-- The power balance without absorbing layers, for real Bloch vectors: what the source delivers, `-½ Re ∫ J* · E`, is
what the materials absorb, `-½ ω ∫ Im ε |E|²`. -/
theorem power_balance {c : SimCfg sh} (h : GoodSim c) (hn : NoLayers c) (hp : SamePeriod c)
    (hk : ∀ a, star (c.bloch.getD 0 a) = c.bloch.getD 0 a) {eps : VField sh.size} (ho : OffResonance c eps) (J : VField sh.size) :
    ∃ E, simFields (withSource c J) eps = some E ∧
      (integral (mesh c) (star J) E).re =
        2 * Real.pi / c.wlen * ∑ a, ∑ r : Cell sh, (volume (mesh c) a r).re * (asField eps a r).im * ‖asField E a r‖ ^ 2 := by
  obtain ⟨A, hA, hu⟩ := ho
  obtain ⟨E, hE, s, _⟩ := solution h hA hu J
  refine ⟨E, hE, ?_⟩
  obtain ⟨_, _, _, hnz, hw⟩ := mesh_spec h
  have hm := mesh_noLayers h hn
  obtain ⟨hre, hrh⟩ := grid_real h
  rw [← hm] at hre hrh
  set d := mesh c with hd
  set k := c.bloch.getD 0 with hkd
  have he : ∀ a i, i < sh a → d.e a i ≠ 0 := fun a i h => (hnz a i h).1
  have hh : ∀ a i, i < sh a → d.h a i ≠ 0 := fun a i h => (hnz a i h).2
  have hphase : ∀ a, axisPhase sh d.e k a = axisPhase sh d.h k a := by
    intro a
    by_cases hka : k a = 0
    · rw [axisPhase, axisPhase, hka, mul_zero, mul_zero]
    · rw [axisPhase, axisPhase, hp a hka]
  obtain ⟨⟨ce, hce⟩, ⟨ch, hch⟩⟩ := curl_defined sh d k
  have hconj : curlE sh d (-k) 0 = some (ce.map star) := by
    have hkk : (-k) = fun b => -star (k b) := by funext b; rw [hk]; rfl
    have : curlE sh d (fun b => -star (k b)) 0 = (curlE sh d k 0).map (fun C => C.map star) := by
      rw [curlE, curlE, derivForward_zero, derivForward_zero]
      simp only [Option.map_some, cross_star, derivM_conj, star_div₀, star_one, hre, axisPhase_conj d.e hre]
    rw [hkk, this, hce]
    rfl
  have hadj := curl_transpose d k he hh hphase _ ch hconj hch
  rw [hw, eFull, hce, hch] at hA
  simp only [Option.bind_some, Option.map_some, Option.some.injEq, maskMat, invMat, Matrix.mul_one, Matrix.one_mul] at hA
  set P := pSquared sh d with hP
  have hPreal : ∀ p, (P p).im = 0 := by
    intro p
    apply Complex.conj_eq_iff_im.1
    have := pSquared_conj (sh := sh) d p
    have hdc : d.conj = d := by
      show (⟨fun a i => star (d.e a i), fun a i => star (d.h a i)⟩ : Dxes) = d
      simp only [hre, hrh]
    rw [hdc] at this
    exact this.symm
  have hDreal : ∀ p, (dualVol sh d p).im = 0 := by
    intro p
    apply Complex.conj_eq_iff_im.1
    show star (dualVol sh d p) = _
    rw [dualVol, star_prod]
    apply Finset.prod_congr rfl
    intro b _
    split
    · exact hrh _ _
    · exact hre _ _
  have hω : c.omega = ((2 * Real.pi / c.wlen : ℝ) : ℂ) := rfl
  have hω0 : 2 * Real.pi / c.wlen ≠ 0 := by
    have := h.wlen
    have := Real.pi_pos
    positivity
  have hform : Matrix.diagonal P * A = (ce.map star)ᵀ * Matrix.diagonal (dualVol sh d) * ce -
      ((2 * Real.pi / c.wlen : ℝ) : ℂ) ^ 2 • Matrix.diagonal fun p => P p * eps p := by
    rw [← hA, Matrix.mul_sub, ← Matrix.mul_assoc, hadj, Matrix.mul_smul, Matrix.diagonal_mul_diagonal, hω]
  have hfin : (integral d (star J) E).re = 2 * Real.pi / c.wlen * ∑ p, (P p).re * (eps p).im * Complex.normSq (E p) := by
    rw [integral_eq]
    exact power_core hω0 hPreal hDreal hform s
  rw [hfin, Fintype.sum_prod_type]
  congr 1
  apply Finset.sum_congr rfl
  intro a _
  rw [← Equiv.sum_comp (cellEquiv sh)]
  apply Finset.sum_congr rfl
  intro r _
  rw [cellEquiv_apply, hP, pSquared_apply, Complex.normSq_eq_norm_sq]
  rfl

theorem volume_nonneg {c : SimCfg sh} (h : GoodSim c) (hn : NoLayers c) (a : Fin 3) (r : Cell sh) : 0 ≤ (volume (mesh c) a r).re := by
  rw [mesh_noLayers h hn]
  have key : ∀ (l : List ℂ) (i : Nat), (∀ x ∈ l, x.im = 0 ∧ 0 < x.re) → ∃ y : ℝ, 0 ≤ y ∧ l.getD i 0 = (y : ℂ) := by
    intro l i hl
    rw [List.getD_eq_getElem?_getD]
    cases hx : l[i]? with
    | none => exact ⟨0, le_refl _, Complex.ofReal_zero.symm⟩
    | some x =>
      have := hl x (List.mem_of_getElem? hx)
      exact ⟨x.re, this.2.le, Complex.ext rfl this.1⟩
  have hf : ∀ b, ∃ y : ℝ, 0 ≤ y ∧ (if b = a then (gridOf c.hp c.dx).e b (r b) else (gridOf c.hp c.dx).h b (r b)) = (y : ℂ) := by
    intro b
    split
    · exact key _ _ (h.grid.e_pos b)
    · exact key _ _ (h.grid.h_pos b)
  choose y hy0 hy using hf
  rw [volume, Finset.prod_congr rfl fun b _ => hy b, ← Complex.ofReal_prod, Complex.ofReal_re]
  exact Finset.prod_nonneg fun b _ => hy0 b

/-- Passivity: without absorbing layers, a source in materials without gain (`Im ε ≤ 0`) never takes power from the fields, and
in materials without absorption it delivers none. -/
theorem passive {c : SimCfg sh} (h : GoodSim c) (hn : NoLayers c) (hp : SamePeriod c)
    (hk : ∀ a, star (c.bloch.getD 0 a) = c.bloch.getD 0 a) {eps : VField sh.size} (ho : OffResonance c eps) (J : VField sh.size)
    (hg : ∀ p, (eps p).im ≤ 0) : ∃ E, simFields (withSource c J) eps = some E ∧
      0 ≤ -(1 / 2) * (integral (mesh c) (star J) E).re ∧
      ((∀ p, (eps p).im = 0) → -(1 / 2) * (integral (mesh c) (star J) E).re = 0) := by
  obtain ⟨E, hE, hb⟩ := power_balance h hn hp hk ho J
  refine ⟨E, hE, ?_, fun hz => ?_⟩
  · rw [hb]
    have hω : 0 ≤ 2 * Real.pi / c.wlen := by
      have := h.wlen
      have := Real.pi_pos
      positivity
    have : ∑ a, ∑ r : Cell sh, (volume (mesh c) a r).re * (asField eps a r).im * ‖asField E a r‖ ^ 2 ≤ 0 := by
      refine Finset.sum_nonpos fun a _ => Finset.sum_nonpos fun r _ => ?_
      exact mul_nonpos_of_nonpos_of_nonneg (mul_nonpos_of_nonneg_of_nonpos (volume_nonneg h hn a r) (hg _)) (by positivity)
    have := mul_nonpos_of_nonneg_of_nonpos hω this
    linarith
  · rw [hb]
    have : ∑ a, ∑ r : Cell sh, (volume (mesh c) a r).re * (asField eps a r).im * ‖asField E a r‖ ^ 2 = 0 := by
      refine Finset.sum_eq_zero fun a _ => Finset.sum_eq_zero fun r _ => ?_
      show _ * (eps (a, pos r)).im * _ = 0
      rw [hz, mul_zero, zero_mul]
    rw [this, mul_zero, mul_zero]

/-- Time reversal: without absorbing layers, for real permittivities and real Bloch vectors, the conjugate current with the
opposite Bloch vector gives minus the conjugate field; without Bloch vector, real currents give imaginary fields. -/
theorem time_reversal {c : SimCfg sh} (h : GoodSim c) (hn : NoLayers c) (hp : SamePeriod c)
    (hk : ∀ a, star (c.bloch.getD 0 a) = c.bloch.getD 0 a) {eps : VField sh.size} (hr : ∀ p, star (eps p) = eps p)
    (ho : OffResonance c eps) (J : VField sh.size) : ∃ E, simFields (withSource c J) eps = some E ∧
      simFields (withSource (reversed c) (star J)) eps = some (-star E) ∧
      (c.bloch = none → star J = J → ∀ p, (E p).re = 0) := by
  obtain ⟨A', hA', hu'⟩ := reversed_off h hp ho
  obtain ⟨A, hA, hu⟩ := ho
  obtain ⟨E, h1, s1, _⟩ := solution h hA hu J
  obtain ⟨E', h2, _, s2⟩ := solution (good_reversed h) hA' hu' (star J)
  have homega : (reversed c).omega = c.omega := rfl
  have hmesh : mesh (reversed c) = mesh c := rfl
  have hAA : A' = A.map star := by
    obtain ⟨_, _, _, _, hw⟩ := mesh_spec h
    obtain ⟨_, _, _, _, hw'⟩ := mesh_spec (good_reversed h)
    obtain ⟨hre, hrh⟩ := grid_real h
    rw [← mesh_noLayers h hn] at hre hrh
    rw [hw] at hA
    have := eFull_real_conj c.omega (omega_star c) (mesh c) hre hrh _ eps hA
    rw [hw', bloch_reversed, homega, hmesh] at hA'
    have hkk : (-(c.bloch.getD 0)) = fun b => -star (c.bloch.getD 0 b) := by funext b; rw [hk]; rfl
    have hee : (fun p => star (eps p)) = eps := funext hr
    rw [hee, ← hkk, hA'] at this
    exact Option.some.inj this
  have hsol : A' *ᵥ (-star E) = (-Complex.I * (reversed c).omega) • star J := by
    rw [hAA, Matrix.mulVec_neg, homega]
    have : (A.map star) *ᵥ star E = star (A *ᵥ E) := by
      funext p
      show ∑ q, star (A p q) * star (E q) = star (∑ q, A p q * E q)
      rw [star_sum]
      exact Finset.sum_congr rfl fun q _ => (star_mul' _ _).symm
    rw [this, s1]
    funext p
    show -star (-Complex.I * c.omega * J p) = -Complex.I * c.omega * star (J p)
    rw [star_mul', star_mul', star_neg, omega_star, show star Complex.I = -Complex.I from Complex.conj_I]
    ring
  have he := s2 _ hsol
  refine ⟨E, h1, by rw [h2, he], fun hb hJ p => ?_⟩
  have hrev : reversed c = c := by
    cases c
    simp only [reversed] at hb ⊢
    rw [hb]
    rfl
  rw [hrev, hJ, h1] at h2
  have hEE : E = -star E := (Option.some.inj h2).trans he.symm
  have := congrArg Complex.re (congrFun hEE p)
  have h3 : ((-star E) p).re = -(E p).re := rfl
  rw [h3] at this
  linarith

/-- The unit of length does not matter: multiplying all lengths by `s` multiplies the fields by `s`, also with absorbing
layers and Bloch phases. -/
theorem unit_of_length {c : SimCfg sh} (h : GoodSim c) {s : ℝ} (hs : 0 < s) {eps : VField sh.size} (ho : OffResonance c eps) :
    ∃ E, simFields c eps = some E ∧ simFields (scaled s c) eps = some ((s : ℂ) • E) := by
  obtain ⟨A, hA, hu⟩ := ho
  have hsc : (s : ℂ) ≠ 0 := Complex.ofReal_ne_zero.2 hs.ne'
  have hread : ∀ row a, (scaled s c).hp.read row a = (c.hp.read row a).map ((s : ℂ) * ·) := fun row a => read_scale s c.hp row a
  have hom : (scaled s c).omega = c.omega / s := by
    show ((2 * Real.pi / (s * c.wlen) : ℝ) : ℂ) = ((2 * Real.pi / c.wlen : ℝ) : ℂ) / s
    push_cast
    rw [div_mul_eq_div_div_swap]
  have hpos : ∀ l : List ℂ, (∀ x ∈ l, x.im = 0 ∧ 0 < x.re) → ∀ x ∈ l.map ((s : ℂ) * ·), x.im = 0 ∧ 0 < x.re := by
    intro l hl x hx
    obtain ⟨y, hy, rfl⟩ := List.mem_map.1 hx
    obtain ⟨h1, h2⟩ := hl y hy
    rw [Complex.im_ofReal_mul, Complex.re_ofReal_mul, h1, mul_zero]
    exact ⟨rfl, mul_pos hs h2⟩
  have hgood : GoodSim (scaled s c) := by
    refine ⟨?_, ?_, ⟨?_, ?_, ?_⟩, ?_, mul_pos hs h.wlen, h.exact⟩
    · intro a
      have : (scaled s c).dx = c.dx := rfl
      rw [this, hread, List.length_map]
      exact h.shape a
    · refine ⟨h.alloc.e_lt, h.alloc.h_lt, fun r hr a => ?_⟩
      show r a < (c.hp.arrays.map _).length
      rw [List.length_map]
      exact h.alloc.arr r hr a
    · intro a
      have : (scaled s c).dx = c.dx := rfl
      rw [this, hread, hread, List.length_map, List.length_map]
      exact h.grid.len a
    · intro a
      rw [hread]
      exact hpos _ (h.grid.e_pos a)
    · intro a
      rw [hread]
      exact hpos _ (h.grid.h_pos a)
    · intro a
      rw [hread, List.length_map]
      exact h.layers a
  obtain ⟨g, happ, hm, _, hw⟩ := mesh_spec h
  obtain ⟨g', happ', hm', _, hw'⟩ := mesh_spec hgood
  have hmm : mesh (scaled s c) = (mesh c).scale s := by
    have : applyScpml (scaled s c).hp (scaled s c).dx (scaled s c).pml (scaled s c).omega = some (g.1.scale s, g.2) := by
      rw [hom]
      show applyScpml (c.hp.scale s) c.dx c.pml (c.omega / s) = _
      rw [apply_scale hs.ne', happ]
      rfl
    rw [happ'] at this
    rw [hm', hm, Option.some.inj this, gridOf_scale]
  have hbl : (scaled s c).bloch.getD 0 = fun b => (c.bloch.getD 0 : Fin 3 → ℂ) b / (s : ℂ) := by
    show (c.bloch.map fun (k : Fin 3 → ℂ) a => k a / (s : ℂ)).getD 0 = _
    cases c.bloch with
    | none => funext b; exact (zero_div _).symm
    | some k => rfl
  have hA' : waveOp (scaled s c) eps = some (((s : ℂ)⁻¹ ^ 2) • A) := by
    rw [hw', hmm, hom, hbl]
    rw [hw] at hA
    exact eFull_scale hsc c.omega (mesh c) _ eps hA
  have hu' : IsUnit (((s : ℂ)⁻¹ ^ 2) • A).det := by
    rw [Matrix.det_smul]
    exact (IsUnit.mk0 _ (pow_ne_zero _ (pow_ne_zero _ (inv_ne_zero hsc)))).mul hu
  obtain ⟨E, h1, s1, _⟩ := solution h hA hu c.J
  obtain ⟨E', h2, _, s2⟩ := solution hgood hA' hu' c.J
  refine ⟨E, h1, ?_⟩
  have hsrc : withSource (scaled s c) c.J = scaled s c := rfl
  rw [hsrc] at h2
  rw [h2, s2 ((s : ℂ) • E)]
  rw [Matrix.smul_mulVec, Matrix.mulVec_smul, s1, smul_smul, smul_smul, hom]
  congr 1
  field_simp

/-- Translation: along axes with equal cell widths, without absorbing layers and without Bloch phase, moving the permittivity
and the current by whole cells, periodically, moves the field. -/
theorem translation {c : SimCfg sh} (h : GoodSim c) (t : Fin 3 → Int)
    (ht : ∀ a, t a ≠ 0 → (∀ front, thickness c.pml a front ≤ 0) ∧ c.bloch.getD 0 a = 0 ∧
      ∃ we wh, ∀ i, i < sh a → (gridOf c.hp c.dx).e a i = we ∧ (gridOf c.hp c.dx).h a i = wh)
    {eps : VField sh.size} (ho : OffResonance c eps) (J eps' J' : VField sh.size)
    (heps : ∀ a r, asField eps' a r = asField eps a (moveCell r t)) (hJ : ∀ a r, asField J' a r = asField J a (moveCell r t)) :
    ∃ E E', simFields (withSource c J) eps = some E ∧ simFields (withSource c J') eps' = some E' ∧
      ∀ a r, asField E' a r = asField E a (moveCell r t) := by
  have hmv : ∀ v v' : VField sh.size, (∀ a r, asField v' a r = asField v a (moveCell r t)) → v' = moved t v := by
    intro v v' hv
    funext p
    obtain ⟨a, i⟩ := p
    have := hv a (cellAt i)
    rw [asField, pos_cellAt] at this
    exact this
  obtain rfl := hmv eps eps' heps
  obtain rfl := hmv J J' hJ
  obtain ⟨A, hA, hu⟩ := ho
  obtain ⟨_, _, _, _, hw⟩ := mesh_spec h
  obtain ⟨A', hA'⟩ := eFull_defined sh c.omega (mesh c) (moved t eps) none none none (c.bloch.getD 0)
  rw [hw] at hA
  have hgrid : ∀ a, t a = 0 ∨ c.bloch.getD 0 a = 0 ∧ ∃ we wh, ∀ i, i < sh a → (mesh c).e a i = we ∧ (mesh c).h a i = wh := by
    intro a
    by_cases h0 : t a = 0
    · exact Or.inl h0
    · obtain ⟨hl, hb, we, wh, hwid⟩ := ht a h0
      refine Or.inr ⟨hb, we, wh, fun i hi => ?_⟩
      have h1 := hl true
      have h2 := hl false
      obtain ⟨g1, g2⟩ := mesh_outside h a i (by omega) (by omega)
      rw [g1, g2]
      exact hwid i hi
  have hmove := eFull_moved c.omega (mesh c) (c.bloch.getD 0) t hgrid eps hA hA'
  have hu' : IsUnit A'.det := by
    rw [← Matrix.isUnit_iff_isUnit_det, ← Matrix.mulVec_injective_iff_isUnit]
    have hker : ∀ x, A' *ᵥ x = 0 → x = 0 := by
      intro x hx
      have hy : moved t (moved (fun b => -t b) x) = x := by
        have := moved_moved (fun b => -t b) x
        simpa using this
      rw [← hy, hmove] at hx
      have hz := congrArg (moved fun b => -t b) hx
      rw [moved_moved, moved_zero] at hz
      have hinj := (Matrix.mulVec_injective_iff_isUnit.2 ((Matrix.isUnit_iff_isUnit_det A).2 hu))
      have : moved (fun b => -t b) x = 0 := hinj (by rw [hz, Matrix.mulVec_zero])
      rw [← hy, this, moved_zero]
    intro x y hxy
    have : A' *ᵥ (x - y) = 0 := by rw [Matrix.mulVec_sub]; exact sub_eq_zero.2 hxy
    exact sub_eq_zero.1 (hker _ this)
  rw [← hw] at hA hA'
  obtain ⟨E, h1, s1, _⟩ := solution h hA hu J
  obtain ⟨E', h2, _, s2⟩ := solution h hA' hu' (moved t J)
  refine ⟨E, E', h1, h2, ?_⟩
  have := s2 (moved t E) (by rw [hmove, s1]; rfl)
  rw [← this]
  intro a r
  show E (a, pos (moveCell (cellAt (pos r)) t)) = _
  rw [cellAt_pos]
  rfl

/-! ### The hypotheses can be met -/

/-- Every simulation with a source is off resonance at some uniform permittivity. -/
theorem off_resonance_case {c : SimCfg sh} (h : GoodSim c) (hJ : c.J ≠ 0) : ∃ s : ℝ, OffResonance c fun _ => (s : ℂ) := by
  obtain ⟨s, E, hA, _⟩ := lit_case h hJ
  have : Verif.Fdfd.epsilonEval (m := 1) (fun _ : Fin 3 × Fin sh.size => (s : ℂ)) (fun _ _ => 1) (fun _ => 0) = fun _ => (s : ℂ) := by
    funext p; simp [epsilonEval, mulVec, dotProduct]
  rw [this] at hA
  exact ⟨s, hA⟩

/-- Eight cells with or without layers; all the hypotheses at once. -/
example (n : Int) (hn : n = 0 ∨ n = 1) : ∃ (c : SimCfg ![2, 2, 2]) (s : ℝ), GoodSim c ∧ c.J ≠ 0 ∧ c.bloch = none ∧ SamePeriod c ∧
    OffResonance c (fun _ => (s : ℂ)) ∧ (n = 0 → NoLayers c) ∧ c.pml = .scalar n ∧
    ∀ a i, i < ![2, 2, 2] a → (gridOf c.hp c.dx).e a i = 1 ∧ (gridOf c.hp c.dx).h a i = 1 := by
  classical
  let c : SimCfg ![2, 2, 2] := ⟨twoCells, ⟨0, 0⟩, 1, .scalar n, none, fun _ => 1,
    fun A b => if h : ∃ x, A *ᵥ x = b then h.choose else 0⟩
  have hr : ∀ a, twoCells.read 0 a = [1, 1] := fun _ => rfl
  have hpos : ∀ (a : Fin 3), ∀ x ∈ twoCells.read 0 a, x.im = 0 ∧ 0 < x.re := by
    intro a x hx
    rw [hr] at hx
    have : x = 1 := by simpa using hx
    subst this
    simp
  have hg : GoodSim c := by
    refine ⟨?_, twoCells_allocated, ⟨fun _ => rfl, hpos, hpos⟩, ?_, one_pos, fun A b h => ?_⟩
    · intro a
      match a with
      | 0 => rfl
      | 1 => rfl
      | 2 => rfl
    · intro a
      show max 0 n + max 0 n ≤ ((twoCells.read 0 a).length : Int)
      rw [hr]
      rcases hn with rfl | rfl <;> decide
    · show A *ᵥ (if h : ∃ x, A *ᵥ x = b then h.choose else 0) = b
      rw [dif_pos h]
      exact h.choose_spec
  have hJ : c.J ≠ 0 := fun h => one_ne_zero (congrFun h (0, ⟨0, by decide⟩))
  obtain ⟨s, hs⟩ := off_resonance_case hg hJ
  refine ⟨c, s, hg, hJ, rfl, fun a hk => absurd rfl hk, hs, fun h0 a f => ?_, rfl, fun a i hi => ?_⟩
  · show n ≤ 0
    omega
  · have : i = 0 ∨ i = 1 := by
      have : i < 2 := by
        match a with
        | 0 => exact hi
        | 1 => exact hi
        | 2 => exact hi
      omega
    show (twoCells.read 0 a).getD i 0 = 1 ∧ (twoCells.read 0 a).getD i 0 = 1
    rw [hr]
    rcases this with rfl | rfl <;> exact ⟨rfl, rfl⟩

end Verif.Fdfd.Laws
