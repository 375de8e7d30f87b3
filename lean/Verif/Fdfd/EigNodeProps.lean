import Verif.Fdfd.EigNode
import Verif.Fdfd.EigLemmas
import Verif.Fdfd.PhcProps
import Mathlib.Tactic.FinCases
/-
Property C113: the gradient of the frequency of a resonance.
-/
namespace Verif.Fdfd
open Matrix Filter Topology
variable {sh : Shape}

/-! ### Specification -/

/-- A permittivity without losses. -/
def realEps {n : Nat} (e : Fin 3 × Fin n → ℝ) : VField n := fun p => (e p : ℂ)

/-- `E` is the electric field of a resonance with frequency `w`: it is not zero, and `∇ × ∇ × E = w² ε E`. -/
def IsResonance (ce ch : Mat3 sh.size) (e : Fin 3 × Fin sh.size → ℝ) (E : VField sh.size) (w : ℂ) : Prop :=
  E ≠ 0 ∧ ∀ p, (ch *ᵥ (ce *ᵥ E)) p = w ^ 2 * ((e p : ℂ) * E p)

/-- There is no other resonance with the same frequency. -/
def Isolated (ce ch : Mat3 sh.size) (e : Fin 3 × Fin sh.size → ℝ) (E : VField sh.size) (w : ℂ) : Prop :=
  ∀ E', IsResonance ce ch e E' w → ∃ c : ℂ, E' = c • E

/-- `G` is the gradient of `f` at `e`. -/
def IsGradientAt {n : Nat} (f : (Fin 3 × Fin n → ℝ) → ℝ) (e G : Fin 3 × Fin n → ℝ) : Prop :=
  ∃ L : (Fin 3 × Fin n → ℝ) →L[ℝ] ℝ, (∀ v, L v = ∑ p, G p * v p) ∧ HasFDerivAt f L e

/-- The frequency that the node returns, zero if it raises. -/
noncomputable def eigFreq {n : Nat} (solve : EigSolver n) (e : Fin 3 × Fin n → ℝ) : ℝ := (eigValue solve (realEps e)).getD 0

/-- The solver returns, for every permittivity without losses, the field of a resonance and its frequency. -/
def ReturnsFields (ce ch : Mat3 sh.size) (solve : EigSolver sh.size) : Prop :=
  ∀ e : Fin 3 × Fin sh.size → ℝ, (∀ p, 0 < e p) → ∃ f fs w ws, solve (realEps e) = (f :: fs, w :: ws) ∧ IsResonance ce ch e f w

/-- The solver returns, for every permittivity without losses, the field of a resonance multiplied by the square root of the permittivity,
which is an eigenvector of the Hermitian form of the operator (C97), and its frequency. -/
def ReturnsNormalised (ce ch : Mat3 sh.size) (solve : EigSolver sh.size) : Prop :=
  ∀ e : Fin 3 × Fin sh.size → ℝ, (∀ p, 0 < e p) → ∃ E fs w ws,
    solve (realEps e) = ((fun p => (Real.sqrt (e p) : ℂ) * E p) :: fs, w :: ws) ∧ IsResonance ce ch e E w

/-! ### Lemmas -/

theorem norm_sq_star (z : ℂ) : star z * z = ((‖z‖ ^ 2 : ℝ) : ℂ) := by
  rw [mul_comm]; simpa [Complex.normSq_eq_norm_sq] using Complex.mul_conj z

/-- What the node computes. -/
theorem domegaDeps_eq {n : Nat} (f : VField n) (w : ℝ) (e : Fin 3 × Fin n → ℝ) (p : Fin 3 × Fin n) :
    domegaDeps f w (realEps e) p = -w / 2 * (‖f p‖ ^ 2 / e p) / ∑ q, ‖f q‖ ^ 2 := by
  have h1 : ∑ q, star (f q) * f q = ((∑ q, ‖f q‖ ^ 2 : ℝ) : ℂ) := by
    push_cast
    refine Finset.sum_congr rfl fun q _ => ?_
    rw [norm_sq_star]
    push_cast
    rfl
  have h2 : -(w : ℂ) / 2 * 1 / ((∑ q, ‖f q‖ ^ 2 : ℝ) : ℂ) * star (f p) * ((e p : ℂ))⁻¹ * f p
      = ((-w / 2 * (‖f p‖ ^ 2 / e p) / ∑ q, ‖f q‖ ^ 2 : ℝ) : ℂ) := by
    have h3 := norm_sq_star (f p)
    push_cast at h3 ⊢
    rw [div_eq_mul_inv _ (e p : ℂ), ← h3]
    ring
  rw [domegaDeps, h1, realEps, h2, Complex.ofReal_re]

/-- The frequency of a resonance is real. -/
theorem resonance_real {d : Dxes} {k : Fin 3 → ℂ} (hd : PhcLattice sh d 0) (hk : ∀ a, (k a).im = 0) {ce ch : Mat3 sh.size}
    (hce : curlE sh d k 0 = some ce) (hch : curlH sh d k 0 = some ch) {e : Fin 3 × Fin sh.size → ℝ} (he : ∀ p, 0 < e p)
    {E : VField sh.size} {w : ℂ} (h : IsResonance ce ch e E w) : w = (w.re : ℂ) := by
  obtain ⟨r, hr, hw⟩ := efield_value hd hk hce hch (eps := realEps e) (fun p => ⟨Complex.ofReal_im _, he p⟩) h.1 h.2
  have h1 := congrArg Complex.re hw
  have h2 := congrArg Complex.im hw
  rw [pow_two, Complex.mul_re, Complex.ofReal_re] at h1
  rw [pow_two, Complex.mul_im, Complex.ofReal_im] at h2
  have h3 : w.re * w.im = 0 := by linarith
  have him : w.im = 0 := by
    rcases mul_eq_zero.1 h3 with h4 | h4
    · rw [h4] at h1
      nlinarith [sq_nonneg w.im]
    · exact h4
  apply Complex.ext
  · simp
  · simpa using him

/-- The gradient of the frequency of an isolated resonance, in terms of its electric field. -/
theorem resonance_gradient {d : Dxes} {wd : Fin 3 → ℝ} (hn : ∀ a, 0 < sh a) (hd : Uniform sh d wd)
    {k : Fin 3 → ℂ} (hk : ∀ a, (k a).im = 0) {ce ch : Mat3 sh.size} (hce : curlE sh d k 0 = some ce)
    (hch : curlH sh d k 0 = some ch) {e0 : Fin 3 × Fin sh.size → ℝ} (he0 : ∀ p, 0 < e0 p)
    {E : (Fin 3 × Fin sh.size → ℝ) → VField sh.size} {freq : (Fin 3 × Fin sh.size → ℝ) → ℝ}
    (hE : ∀ e, (∀ p, 0 < e p) → IsResonance ce ch e (E e) (freq e : ℂ)) (hc : ContinuousAt freq e0) (h0 : 0 < freq e0)
    (hi : Isolated ce ch e0 (E e0) (freq e0 : ℂ)) :
    IsGradientAt freq e0 fun p => -freq e0 / 2 * ‖E e0 p‖ ^ 2 / ∑ q, e0 q * ‖E e0 q‖ ^ 2 := by
  have hpos : ∀ᶠ e in 𝓝 e0, ∀ p, 0 < e p := by
    rw [eventually_all]
    intro p
    exact (continuous_apply p).continuousAt.eventually (lt_mem_nhds (he0 p))
  have hconj := uniform_conj d wd hd hn k hk 0 ce ch hce hch
  have hK : (ch * ce)ᴴ = ch * ce := by
    rw [hconj, conjTranspose_mul, conjTranspose_conjTranspose]
  let L : (Fin 3 × Fin sh.size → ℝ) →L[ℝ] ℝ := ∑ p, (-(freq e0) ^ 2 * ‖E e0 p‖ ^ 2 / (∑ q, e0 q * ‖E e0 q‖ ^ 2)) •
    ContinuousLinearMap.proj (R := ℝ) (φ := fun _ => ℝ) p
  have hL : ∀ v, L v = ∑ p, -(freq e0) ^ 2 * ‖E e0 p‖ ^ 2 / (∑ q, e0 q * ‖E e0 q‖ ^ 2) * v p := by
    intro v
    simp [L, _root_.sum_apply]
  have hlam := Eig.eigenvalue_deriv (K := ch * ce) hK he0 (E := E) (lam := fun e => freq e ^ 2)
    (hpos.mono fun e he => (hE e he).1)
    (hpos.mono fun e he => by
      funext p
      rw [← mulVec_mulVec, (hE e he).2]
      push_cast
      rfl) (hc.pow 2)
    (fun w hw => by
      by_cases hw0 : w = 0
      · exact ⟨0, by rw [hw0, zero_smul]⟩
      · refine hi w ⟨hw0, fun p => ?_⟩
        have := congrFun hw p
        rw [← mulVec_mulVec] at this
        rw [this]
        push_cast
        rfl) L hL
  have hs := hlam.sqrt (by positivity)
  have heq : freq =ᶠ[𝓝 e0] fun e => Real.sqrt (freq e ^ 2) := by
    filter_upwards [hc.eventually (lt_mem_nhds h0)] with e he
    rw [Real.sqrt_sq (le_of_lt he)]
  refine ⟨_, fun v => ?_, hs.congr_of_eventuallyEq heq⟩
  rw [_root_.smul_apply, hL, smul_eq_mul, Finset.mul_sum]
  refine Finset.sum_congr rfl fun p _ => ?_
  rw [Real.sqrt_sq h0.le]
  field_simp

theorem pickGrad_other (acc : Option ℝ) (B : List (EigOut × Option ℝ)) (hB : ∀ o ∈ B, o.1 = .other) : pickGrad acc B = acc := by
  induction B with
  | nil => rfl
  | cons o B ih =>
    obtain ⟨k, g⟩ := o
    have := hB (k, g) List.mem_cons_self
    simp only at this
    subst this
    rw [pickGrad]
    exact ih fun o ho => hB o (List.mem_cons_of_mem _ ho)

theorem pickGrad_value (acc : Option ℝ) (A B : List (EigOut × Option ℝ)) (hA : ∀ o ∈ A, o.1 = .other) (hB : ∀ o ∈ B, o.1 = .other) (w : ℝ) :
    pickGrad acc (A ++ (.value, some w) :: B) = some w := by
  induction A with
  | nil => rw [List.nil_append, pickGrad, pickGrad_other _ _ hB]
  | cons o A ih =>
    obtain ⟨k, g⟩ := o
    have := hA (k, g) List.mem_cons_self
    simp only at this
    subst this
    rw [List.cons_append, pickGrad]
    exact ih fun o ho => hA o (List.mem_cons_of_mem _ ho)

theorem isGradient_unique {n : Nat} {f : (Fin 3 × Fin n → ℝ) → ℝ} {e G G' : Fin 3 × Fin n → ℝ} (h : IsGradientAt f e G)
    (h' : IsGradientAt f e G') : G = G' := by
  obtain ⟨L, hL, hd⟩ := h
  obtain ⟨L', hL', hd'⟩ := h'
  have := hd.unique hd'
  subst this
  funext j
  have := hL (Pi.single j 1)
  rw [hL'] at this
  simpa [Pi.single_apply] using this.symm

theorem isGradient_comp {n : Nat} {f : (Fin 3 × Fin n → ℝ) → ℝ} {e G : Fin 3 × Fin n → ℝ} (h : IsGradientAt f e G) {Φ : ℝ → ℝ} {w : ℝ}
    (hΦ : HasDerivAt Φ w (f e)) : IsGradientAt (fun e => Φ (f e)) e fun p => w * G p := by
  obtain ⟨L, hL, hd⟩ := h
  refine ⟨_, fun v => ?_, hΦ.comp_hasFDerivAt e hd⟩
  rw [_root_.smul_apply, hL, smul_eq_mul, Finset.mul_sum]
  exact Finset.sum_congr rfl fun p _ => by ring

/-! ### C113 -/

/-- C113, the part that holds: for a solver that returns eigenvectors of the Hermitian form, the node returns the gradient of an
objective of the frequency, for any choice of eigenvectors, if the frequency is continuous and belongs to one resonance only. Uniform
grid without PML, as goos makes it, with Bloch phases. Missing: fields themselves, see `eig_gradient_fields_iff`, and outputs other than one
frequency, see `eig_two_outputs_false` and `eig_field_output_ignored`. -/
theorem eig_gradient_partial {d : Dxes} {wd : Fin 3 → ℝ} (hn : ∀ a, 0 < sh a) (hw : ∀ a, 0 < wd a) (hd : Uniform sh d wd)
    {k : Fin 3 → ℂ} (hk : ∀ a, (k a).im = 0) {ce ch : Mat3 sh.size} (hce : curlE sh d k 0 = some ce)
    (hch : curlH sh d k 0 = some ch) {solve : EigSolver sh.size} (hs : ReturnsNormalised ce ch solve)
    {e0 : Fin 3 × Fin sh.size → ℝ} (he0 : ∀ p, 0 < e0 p) (hc : ContinuousAt (eigFreq solve) e0) (h0 : 0 < eigFreq solve e0)
    (hi : ∀ E, IsResonance ce ch e0 E (eigFreq solve e0 : ℂ) → Isolated ce ch e0 E (eigFreq solve e0 : ℂ))
    {Φ : ℝ → ℝ} {w : ℝ} (hΦ : HasDerivAt Φ w (eigFreq solve e0)) (A B : List (EigOut × Option ℝ)) (hA : ∀ o ∈ A, o.1 = .other)
    (hB : ∀ o ∈ B, o.1 = .other) :
    ∃ G, eigNodeGrad solve (realEps e0) (A ++ (.value, some w) :: B) = some G ∧ IsGradientAt (fun e => Φ (eigFreq solve e)) e0 G := by
  have hlat : PhcLattice sh d 0 := ⟨hn, fun b i hi => by
    rw [(hd b i hi).1, (hd b i hi).2]
    exact ⟨Complex.ofReal_im _, hw b, Complex.ofReal_im _, hw b⟩, Or.inr ⟨wd, hd⟩⟩
  classical
  choose! E fs ws1 wss h1 h2 using hs
  have hfreq : ∀ e, (∀ p, 0 < e p) → eigFreq solve e = (ws1 e).re := by
    intro e he
    simp [eigFreq, eigValue, eigRun, h1 e he]
  have hres : ∀ e, (∀ p, 0 < e p) → IsResonance ce ch e (E e) (eigFreq solve e : ℂ) := by
    intro e he
    rw [hfreq e he, ← resonance_real hlat hk hce hch he (h2 e he)]
    exact h2 e he
  have hg := resonance_gradient hn hd hk hce hch he0 hres hc h0 (hi _ (hres e0 he0))
  refine ⟨_, ?_, isGradient_comp hg hΦ⟩
  have hf0 := hfreq e0 he0
  simp only [eigNodeGrad, eigRun, h1 e0 he0, List.head?_cons, Option.bind_some, Option.map_some, pickGrad_value _ A B hA hB]
  congr 1
  funext p
  congr 1
  rw [domegaDeps_eq, ← hf0]
  have hn2 : ∀ q, ‖(Real.sqrt (e0 q) : ℂ) * E e0 q‖ ^ 2 = e0 q * ‖E e0 q‖ ^ 2 := by
    intro q
    rw [norm_mul, mul_pow, Complex.norm_real, Real.norm_eq_abs, sq_abs, Real.sq_sqrt (he0 q).le]
  simp only [hn2]
  rw [mul_div_cancel_left₀ _ (he0 p).ne']

/-- C113: for a solver that returns the electric fields themselves, what the node returns is the gradient of the frequency if and only if the
permittivity is the same wherever the field of the resonance is not zero. -/
theorem eig_gradient_fields_iff {d : Dxes} {wd : Fin 3 → ℝ} (hn : ∀ a, 0 < sh a) (hw : ∀ a, 0 < wd a) (hd : Uniform sh d wd)
    {k : Fin 3 → ℂ} (hk : ∀ a, (k a).im = 0) {ce ch : Mat3 sh.size} (hce : curlE sh d k 0 = some ce)
    (hch : curlH sh d k 0 = some ch) {solve : EigSolver sh.size} (hs : ReturnsFields ce ch solve)
    {e0 : Fin 3 × Fin sh.size → ℝ} (he0 : ∀ p, 0 < e0 p) (hc : ContinuousAt (eigFreq solve) e0) (h0 : 0 < eigFreq solve e0)
    (hi : ∀ E, IsResonance ce ch e0 E (eigFreq solve e0 : ℂ) → Isolated ce ch e0 E (eigFreq solve e0 : ℂ)) :
    (∃ G, eigNodeGrad solve (realEps e0) [(.value, some 1)] = some G ∧ IsGradientAt (eigFreq solve) e0 G) ↔
      ∃ s : ℝ, ∀ E fs, (solve (realEps e0)).1 = E :: fs → ∀ p, E p ≠ 0 → e0 p = s := by
  have hlat : PhcLattice sh d 0 := ⟨hn, fun b i hi => by
    rw [(hd b i hi).1, (hd b i hi).2]
    exact ⟨Complex.ofReal_im _, hw b, Complex.ofReal_im _, hw b⟩, Or.inr ⟨wd, hd⟩⟩
  classical
  choose! E fs ws1 wss h1 h2 using hs
  have hfreq : ∀ e, (∀ p, 0 < e p) → eigFreq solve e = (ws1 e).re := by
    intro e he
    simp [eigFreq, eigValue, eigRun, h1 e he]
  have hres : ∀ e, (∀ p, 0 < e p) → IsResonance ce ch e (E e) (eigFreq solve e : ℂ) := by
    intro e he
    rw [hfreq e he, ← resonance_real hlat hk hce hch he (h2 e he)]
    exact h2 e he
  have hg := resonance_gradient hn hd hk hce hch he0 hres hc h0 (hi _ (hres e0 he0))
  have hf0 := hfreq e0 he0
  have hnode : eigNodeGrad solve (realEps e0) [(.value, some 1)] = some (domegaDeps (E e0) (eigFreq solve e0) (realEps e0)) := by
    simp only [eigNodeGrad, eigRun, h1 e0 he0, List.head?_cons, Option.bind_some, Option.map_some, pickGrad, one_mul, ← hf0]
  have hpos := Eig.energy_pos he0 (hres e0 he0).1
  have hpos1 : 0 < ∑ q, ‖E e0 q‖ ^ 2 := by
    have := Eig.energy_pos (e := fun _ => (1 : ℝ)) (fun _ => one_pos) (hres e0 he0).1
    simpa using this
  constructor
  · rintro ⟨G, hG1, hG2⟩
    rw [hnode] at hG1
    have hG := isGradient_unique hG2 hg
    rw [← Option.some.inj hG1] at hG
    refine ⟨(∑ q, e0 q * ‖E e0 q‖ ^ 2) / ∑ q, ‖E e0 q‖ ^ 2, fun E' fs' hE' p hp => ?_⟩
    rw [h1 e0 he0] at hE'
    have hEE : E e0 = E' := (List.cons.inj hE').1
    subst hEE
    have hp2 := congrFun hG p
    rw [domegaDeps_eq] at hp2
    have hnp : ‖E e0 p‖ ^ 2 ≠ 0 := pow_ne_zero _ (norm_ne_zero_iff.2 hp)
    have hep := he0 p
    have hep' := hep.ne'
    have hposn := hpos.ne'
    have hpos1n := hpos1.ne'
    have h0n := h0.ne'
    rw [eq_div_iff hpos1n]
    field_simp at hp2
    linarith
  · rintro ⟨s, hs⟩
    refine ⟨_, hnode, ?_⟩
    have hsp := hs (E e0) (fs e0) (by rw [h1 e0 he0])
    have hsum : ∑ q, e0 q * ‖E e0 q‖ ^ 2 = s * ∑ q, ‖E e0 q‖ ^ 2 := by
      rw [Finset.mul_sum]
      refine Finset.sum_congr rfl fun q _ => ?_
      by_cases hq : E e0 q = 0
      · simp [hq]
      · rw [hsp q hq]
    have : domegaDeps (E e0) (eigFreq solve e0) (realEps e0)
        = fun p => -eigFreq solve e0 / 2 * ‖E e0 p‖ ^ 2 / ∑ q, e0 q * ‖E e0 q‖ ^ 2 := by
      funext p
      rw [domegaDeps_eq, hsum]
      by_cases hp : E e0 p = 0
      · simp [hp]
      · rw [hsp p hp]
        have hs0 : s ≠ 0 := by rw [← hsp p hp]; exact (he0 p).ne'
        have hpos1n := hpos1.ne'
        field_simp
    rw [this]
    exact hg

/-- C113: the phase and the norm of the vector do not matter. -/
theorem eig_gradient_phase {n : Nat} (f : VField n) (w : ℝ) (e : Fin 3 × Fin n → ℝ) (c : ℂ) (hc : c ≠ 0) :
    domegaDeps (c • f) w (realEps e) = domegaDeps f w (realEps e) := by
  funext p
  rw [domegaDeps_eq, domegaDeps_eq]
  simp only [Pi.smul_apply, smul_eq_mul, norm_mul, mul_pow, ← Finset.mul_sum]
  have hc2 : ‖c‖ ^ 2 ≠ 0 := pow_ne_zero _ (norm_ne_zero_iff.2 hc)
  rw [show -w / 2 * (‖c‖ ^ 2 * ‖f p‖ ^ 2 / e p) = ‖c‖ ^ 2 * (-w / 2 * (‖f p‖ ^ 2 / e p)) by ring, mul_div_mul_left _ _ hc2]

/-- C113: a larger permittivity lowers the frequency: no entry of the gradient of a positive frequency is positive. -/
theorem eig_gradient_sign {n : Nat} (f : VField n) (w : ℝ) (hw : 0 ≤ w) (e : Fin 3 × Fin n → ℝ) (he : ∀ p, 0 < e p) (p : Fin 3 × Fin n) :
    domegaDeps f w (realEps e) p ≤ 0 := by
  rw [domegaDeps_eq, show -w / 2 * (‖f p‖ ^ 2 / e p) / ∑ q, ‖f q‖ ^ 2 = -(w / 2 * (‖f p‖ ^ 2 / e p) / ∑ q, ‖f q‖ ^ 2) by ring]
  have := he p
  have : 0 ≤ w / 2 * (‖f p‖ ^ 2 / e p) / ∑ q, ‖f q‖ ^ 2 := by positivity
  linarith

/-- C113: scaling the permittivity. The gradient in the direction of the permittivity itself is `-w / 2`, as for a frequency that
is proportional to `1 / √ε`. -/
theorem eig_gradient_scaling {n : Nat} (f : VField n) (hf : f ≠ 0) (w : ℝ) (e : Fin 3 × Fin n → ℝ) (he : ∀ p, 0 < e p) :
    ∑ p, domegaDeps f w (realEps e) p * e p = -w / 2 := by
  have hpos1 : 0 < ∑ q, ‖f q‖ ^ 2 := by
    have := Eig.energy_pos (e := fun _ => (1 : ℝ)) (fun _ => one_pos) hf
    simpa using this
  have : ∀ p, domegaDeps f w (realEps e) p * e p = -w / 2 / (∑ q, ‖f q‖ ^ 2) * ‖f p‖ ^ 2 := by
    intro p
    rw [domegaDeps_eq]
    have := (he p).ne'
    field_simp
  simp only [this, ← Finset.mul_sum]
  field_simp

/-! ### A resonator of two cells -/

/-- The shape of two cells along the first axis. -/
abbrev sh2 : Shape := ![2, 1, 1]

/-- Cells of size one. -/
noncomputable def d2 : Dxes := ⟨fun _ _ => 1, fun _ _ => 1⟩

theorem sh2_pos : ∀ a, 0 < sh2 a := by decide

theorem d2_uniform : Uniform sh2 d2 (fun _ => 1) := fun _ _ _ => by simp [d2]

theorem next_other2 : ∀ (a : Fin 3) (c : Cell sh2), a ≠ 0 → nextCell a c = c := by decide
theorem prev_other2 : ∀ (a : Fin 3) (c : Cell sh2), a ≠ 0 → prevCell a c = c := by decide
theorem prev_zero : ∀ c : Cell sh2, prevCell 0 c = nextCell 0 c := by decide
theorem next_next : ∀ c : Cell sh2, nextCell 0 (nextCell 0 c) = c := by decide

theorem fwd2 (a : Fin 3) (f : Cell sh2 → ℂ) (c : Cell sh2) : fwdDiff d2.e 0 a f c = if a = 0 then f (nextCell 0 c) - f c else 0 := by
  have h1 : upPhase d2.e 0 a c = 1 := by simp [upPhase]
  rw [fwdDiff, h1]
  by_cases ha : a = 0
  · subst ha; simp [d2]
  · rw [next_other2 a c ha, if_neg ha]; simp

theorem back2 (a : Fin 3) (f : Cell sh2 → ℂ) (c : Cell sh2) : backDiff d2.h 0 a f c = if a = 0 then f c - f (nextCell 0 c) else 0 := by
  have h1 : downPhase d2.h 0 a c = 1 := by simp [downPhase]
  rw [backDiff, h1]
  by_cases ha : a = 0
  · subst ha; simp [d2, prev_zero]
  · rw [prev_other2 a c ha, if_neg ha]; simp

/-- The double curl on two cells. -/
theorem curl2 {ce ch : Mat3 sh2.size} (hce : curlE sh2 d2 0 0 = some ce) (hch : curlH sh2 d2 0 0 = some ch) (E : VField sh2.size)
    (a : Fin 3) (c : Cell sh2) :
    (ch *ᵥ (ce *ᵥ E)) (a, pos c) = if a = 0 then 0 else 2 * E (a, pos c) - 2 * E (a, pos (nextCell 0 c)) := by
  have hE : IsVec (fun a c => E (a, pos c)) E := fun _ _ => rfl
  have hH : IsVec (fun a c => (ce *ᵥ E) (a, pos c)) (ce *ᵥ E) := fun _ _ => rfl
  have h1 := fun c => curl_e_pointwise d2 0 ce hce _ E hE c
  have h2 := curl_h_pointwise d2 0 ch hch _ _ hH c
  simp only [fwd2, back2] at h1 h2
  obtain ⟨g0, g1, g2⟩ := h2
  fin_cases a
  · exact g0.trans (by simp)
  · refine g1.trans ?_
    simp only [(h1 _).2.2, next_next]
    simp
    ring
  · refine g2.trans ?_
    simp only [(h1 _).2.1, next_next]
    simp
    ring

/-- The two cells. -/
def resCell0 : Cell sh2 := fun a => ⟨0, sh2_pos a⟩
def resCell1 : Cell sh2 := nextCell 0 resCell0

theorem cells2 : ∀ c : Cell sh2, c = resCell0 ∨ c = resCell1 := by decide
theorem cells2_ne : resCell1 ≠ resCell0 := by decide
theorem next0 : nextCell 0 resCell0 = resCell1 := rfl
theorem next1 : nextCell 0 resCell1 = resCell0 := next_next resCell0

/-- The resonance whose field points along the second axis. -/
noncomputable def field2 (e : Fin 3 × Fin sh2.size → ℝ) : VField sh2.size := fun p =>
  if p.1 = 1 then (if p.2 = pos resCell0 then ((1 / e (1, pos resCell0) : ℝ) : ℂ) else ((-1 / e (1, pos resCell1) : ℝ) : ℂ)) else 0

/-- Its frequency. -/
noncomputable def freq2 (e : Fin 3 × Fin sh2.size → ℝ) : ℝ := Real.sqrt (2 / e (1, pos resCell0) + 2 / e (1, pos resCell1))

theorem pos1_ne : pos resCell1 ≠ pos resCell0 := fun h => cells2_ne (pos_inj.1 h)

theorem resonance2 {ce ch : Mat3 sh2.size} (hce : curlE sh2 d2 0 0 = some ce) (hch : curlH sh2 d2 0 0 = some ch)
    (e : Fin 3 × Fin sh2.size → ℝ) (he : ∀ p, 0 < e p) : IsResonance ce ch e (field2 e) (freq2 e : ℂ) := by
  have h0 := he (1, pos resCell0)
  have h1 := he (1, pos resCell1)
  refine ⟨fun h => ?_, ?_⟩
  · have := congrFun h (1, pos resCell0)
    simp only [field2, if_true, Pi.zero_apply, Complex.ofReal_eq_zero] at this
    rw [one_div, inv_eq_zero] at this
    exact h0.ne' this
  · rintro ⟨a, i⟩
    obtain ⟨c, rfl⟩ : ∃ c, i = pos c := ⟨cellAt i, (pos_cellAt i).symm⟩
    have hsq : (freq2 e : ℂ) ^ 2 = ((2 / e (1, pos resCell0) + 2 / e (1, pos resCell1) : ℝ) : ℂ) := by
      rw [← Complex.ofReal_pow, freq2, Real.sq_sqrt (by positivity)]
    rw [curl2 hce hch, hsq]
    have hn0 : ((e (1, pos resCell0) : ℝ) : ℂ) ≠ 0 := by exact_mod_cast h0.ne'
    have hn1 : ((e (1, pos resCell1) : ℝ) : ℂ) ≠ 0 := by exact_mod_cast h1.ne'
    by_cases ha : a = 1
    · subst ha
      rcases cells2 c with rfl | rfl
      · rw [next0]
        simp only [field2, if_true, if_neg pos1_ne]
        simp
        field_simp
        ring
      · rw [next1]
        simp only [field2, if_true, if_neg pos1_ne]
        simp
        field_simp
        ring
    · simp [field2, ha]

/-- There is no other resonance with this frequency unless the third components happen to have one. -/
theorem isolated2 {ce ch : Mat3 sh2.size} (hce : curlE sh2 d2 0 0 = some ce) (hch : curlH sh2 d2 0 0 = some ch)
    (e : Fin 3 × Fin sh2.size → ℝ) (he : ∀ p, 0 < e p)
    (hz : 2 / e (2, pos resCell0) + 2 / e (2, pos resCell1) ≠ 2 / e (1, pos resCell0) + 2 / e (1, pos resCell1)) (E : VField sh2.size)
    (hE : IsResonance ce ch e E (freq2 e : ℂ)) : ∃ c : ℂ, E = c • field2 e := by
  have hsq : (freq2 e : ℂ) ^ 2 = ((2 / e (1, pos resCell0) + 2 / e (1, pos resCell1) : ℝ) : ℂ) := by
    have h0 := he (1, pos resCell0)
    have h1 := he (1, pos resCell1)
    rw [← Complex.ofReal_pow, freq2, Real.sq_sqrt (by positivity)]
  have hne : ∀ p, (e p : ℂ) ≠ 0 := fun p => by exact_mod_cast (he p).ne'
  have hl : (2 / e (1, pos resCell0) + 2 / e (1, pos resCell1) : ℂ) ≠ 0 := by
    have h0 := he (1, pos resCell0)
    have h1 := he (1, pos resCell1)
    have : (2 / e (1, pos resCell0) + 2 / e (1, pos resCell1) : ℝ) ≠ 0 := by positivity
    exact_mod_cast this
  have h := fun a c => (curl2 hce hch E a c).symm.trans (hE.2 (a, pos c))
  simp only [hsq] at h
  push_cast at h
  have hx : ∀ c, E (0, pos c) = 0 := by
    intro c
    have := h 0 c
    rw [if_pos rfl] at this
    rcases mul_eq_zero.1 this.symm with h1 | h1
    · exact absurd h1 hl
    · exact (mul_eq_zero.1 h1).resolve_left (hne _)
  -- the sum of the two equations, and one of them
  have hsum : ∀ a, a ≠ 0 → (e (a, pos resCell0) : ℂ) * E (a, pos resCell0) + (e (a, pos resCell1) : ℂ) * E (a, pos resCell1) = 0 := by
    intro a ha
    have h0 := h a resCell0
    have h1 := h a resCell1
    rw [if_neg ha, next0] at h0
    rw [if_neg ha, next1] at h1
    have : (2 / (e (1, pos resCell0) : ℂ) + 2 / (e (1, pos resCell1) : ℂ)) *
        ((e (a, pos resCell0) : ℂ) * E (a, pos resCell0) + (e (a, pos resCell1) : ℂ) * E (a, pos resCell1)) = 0 := by
      linear_combination -h0 - h1
    exact (mul_eq_zero.1 this).resolve_left hl
  have hval : ∀ a, a ≠ 0 → E (a, pos resCell1) = -(e (a, pos resCell0) : ℂ) * E (a, pos resCell0) / (e (a, pos resCell1) : ℂ) := by
    intro a ha
    rw [eq_div_iff (hne _)]
    linear_combination hsum a ha
  have hz2 : E (2, pos resCell0) = 0 := by
    have h0 := h 2 resCell0
    rw [if_neg (by decide), next0, hval 2 (by decide)] at h0
    by_contra hcon
    apply hz
    have hq : (2 / (e (2, pos resCell0) : ℂ) + 2 / (e (2, pos resCell1) : ℂ)) = 2 / (e (1, pos resCell0) : ℂ) + 2 / (e (1, pos resCell1) : ℂ) := by
      have h1 : (e (2, pos resCell0) : ℂ) * E (2, pos resCell0) ≠ 0 := mul_ne_zero (hne _) hcon
      apply mul_right_cancel₀ h1
      rw [← h0]
      have := hne (2, pos resCell0)
      have := hne (2, pos resCell1)
      field_simp
      ring
    exact_mod_cast hq
  refine ⟨E (1, pos resCell0) * e (1, pos resCell0), ?_⟩
  funext ⟨a, i⟩
  obtain ⟨c, rfl⟩ : ∃ c, i = pos c := ⟨cellAt i, (pos_cellAt i).symm⟩
  rw [Pi.smul_apply, smul_eq_mul]
  fin_cases a
  · simpa [field2] using hx c
  · rcases cells2 c with rfl | rfl
    · simp only [field2]
      have := hne (1, pos resCell0)
      simp
      field_simp
    · have h3 := hval 1 (by decide)
      simp only [field2, if_neg pos1_ne]
      refine h3.trans ?_
      have := hne (1, pos resCell1)
      simp
      field_simp
  · rcases cells2 c with rfl | rfl
    · simpa [field2] using hz2
    · refine (hval 2 (by decide)).trans ?_
      simp [field2, hz2]

/-- The solver that returns this field, or that field multiplied by the square root of the permittivity. -/
noncomputable def solve2 (normalised : Bool) : EigSolver sh2.size := fun eps =>
  let e : Fin 3 × Fin sh2.size → ℝ := fun p => (eps p).re
  ([if normalised then fun p => (Real.sqrt (e p) : ℂ) * field2 e p else field2 e], [(freq2 e : ℂ)])

/-- Permittivities 1 and 2 for the second component, 4 for the others. -/
noncomputable def eps2 : Fin 3 × Fin sh2.size → ℝ := fun p => if p = (1, pos resCell0) then 1 else if p = (1, pos resCell1) then 2 else 4

theorem eps2_pos (p : Fin 3 × Fin sh2.size) : 0 < eps2 p := by
  unfold eps2
  split
  · norm_num
  · split <;> norm_num

theorem eps2_0 : eps2 (1, pos resCell0) = 1 := by simp [eps2]
theorem eps2_1 : eps2 (1, pos resCell1) = 2 := by simp [eps2, pos1_ne]
theorem eps2_z (c : Cell sh2) : eps2 (2, pos c) = 4 := by simp [eps2]

theorem solve2_freq (b : Bool) (e : Fin 3 × Fin sh2.size → ℝ) : eigFreq (solve2 b) e = freq2 e := by
  simp [eigFreq, eigValue, eigRun, solve2, realEps]

theorem solve2_continuous (b : Bool) : ContinuousAt (eigFreq (solve2 b)) eps2 := by
  have : eigFreq (solve2 b) = freq2 := funext (solve2_freq b)
  rw [this]
  unfold freq2
  refine Real.continuous_sqrt.continuousAt.comp ?_
  refine ContinuousAt.add ?_ ?_
  · exact continuousAt_const.div (continuous_apply _).continuousAt (eps2_pos _).ne'
  · exact continuousAt_const.div (continuous_apply _).continuousAt (eps2_pos _).ne'

theorem solve2_positive (b : Bool) : 0 < eigFreq (solve2 b) eps2 := by
  rw [solve2_freq, freq2, eps2_0, eps2_1]
  apply Real.sqrt_pos.2
  norm_num

theorem solve2_isolated {ce ch : Mat3 sh2.size} (hce : curlE sh2 d2 0 0 = some ce) (hch : curlH sh2 d2 0 0 = some ch) (b : Bool)
    (E : VField sh2.size) (hE : IsResonance ce ch eps2 E (eigFreq (solve2 b) eps2 : ℂ)) :
    Isolated ce ch eps2 E (eigFreq (solve2 b) eps2 : ℂ) := by
  rw [solve2_freq] at hE ⊢
  have hz : 2 / eps2 (2, pos resCell0) + 2 / eps2 (2, pos resCell1) ≠ 2 / eps2 (1, pos resCell0) + 2 / eps2 (1, pos resCell1) := by
    rw [eps2_z, eps2_z, eps2_0, eps2_1]
    norm_num
  intro E' hE'
  obtain ⟨c, hc⟩ := isolated2 hce hch eps2 eps2_pos hz E hE
  obtain ⟨c', hc'⟩ := isolated2 hce hch eps2 eps2_pos hz E' hE'
  have hc0 : c ≠ 0 := by
    rintro rfl
    exact hE.1 (by rw [hc, zero_smul])
  refine ⟨c' / c, ?_⟩
  rw [hc', hc, smul_smul, div_mul_cancel₀ _ hc0]

theorem solve2_normalised {ce ch : Mat3 sh2.size} (hce : curlE sh2 d2 0 0 = some ce) (hch : curlH sh2 d2 0 0 = some ch) :
    ReturnsNormalised ce ch (solve2 true) := by
  intro e he
  exact ⟨field2 e, [], (freq2 e : ℂ), [], by simp [solve2, realEps], resonance2 hce hch e he⟩

theorem solve2_fields {ce ch : Mat3 sh2.size} (hce : curlE sh2 d2 0 0 = some ce) (hch : curlH sh2 d2 0 0 = some ch) :
    ReturnsFields ce ch (solve2 false) := by
  intro e he
  exact ⟨field2 e, [], (freq2 e : ℂ), [], by simp [solve2, realEps], resonance2 hce hch e he⟩

/-- The hypotheses of `eig_gradient_partial` are met, with a permittivity that is not uniform. -/
example : ∃ (ce ch : Mat3 sh2.size) (G : Fin 3 × Fin sh2.size → ℝ), curlE sh2 d2 0 0 = some ce ∧ curlH sh2 d2 0 0 = some ch ∧
    ReturnsNormalised ce ch (solve2 true) ∧ eigNodeGrad (solve2 true) (realEps eps2) [(.other, none), (.value, some 1)] = some G ∧
    IsGradientAt (eigFreq (solve2 true)) eps2 G := by
  obtain ⟨⟨ce, hce⟩, ch, hch⟩ := curl_defined sh2 d2 0
  obtain ⟨G, h1, h2⟩ := eig_gradient_partial sh2_pos (fun _ => one_pos) d2_uniform (fun _ => rfl) hce hch (solve2_normalised hce hch)
    eps2_pos (solve2_continuous _) (solve2_positive _) (solve2_isolated hce hch _) (hasDerivAt_id _) [(.other, none)] []
    (by simp) (by simp)
  exact ⟨ce, ch, G, hce, hch, solve2_normalised hce hch, h1, h2⟩

/-- C113 is false for a solver that returns electric fields: on a grid of two cells whose permittivity is not uniform, what the node
returns is not the gradient of the frequency. -/
theorem eig_gradient_fields_false : ∃ (ce ch : Mat3 sh2.size) (G : Fin 3 × Fin sh2.size → ℝ), curlE sh2 d2 0 0 = some ce ∧
    curlH sh2 d2 0 0 = some ch ∧ ReturnsFields ce ch (solve2 false) ∧
    (∀ E, IsResonance ce ch eps2 E (eigFreq (solve2 false) eps2 : ℂ) → Isolated ce ch eps2 E (eigFreq (solve2 false) eps2 : ℂ)) ∧
    eigNodeGrad (solve2 false) (realEps eps2) [(.value, some 1)] = some G ∧ ¬ IsGradientAt (eigFreq (solve2 false)) eps2 G := by
  obtain ⟨⟨ce, hce⟩, ch, hch⟩ := curl_defined sh2 d2 0
  have hiff := eig_gradient_fields_iff sh2_pos (fun _ => one_pos) d2_uniform (fun _ => rfl) hce hch (solve2_fields hce hch)
    eps2_pos (solve2_continuous _) (solve2_positive _) (solve2_isolated hce hch _)
  have hnode : ∃ G, eigNodeGrad (solve2 false) (realEps eps2) [(.value, some 1)] = some G := by
    simp [eigNodeGrad, eigRun, solve2, pickGrad]
  obtain ⟨G, hG⟩ := hnode
  refine ⟨ce, ch, G, hce, hch, solve2_fields hce hch, solve2_isolated hce hch _, hG, fun hg => ?_⟩
  obtain ⟨s, hs⟩ := hiff.1 ⟨G, hG, hg⟩
  have hf : (solve2 false (realEps eps2)).1 = [field2 eps2] := by simp [solve2, realEps]
  have h0 := hs _ _ hf (1, pos resCell0) (by simp [field2, eps2_0])
  have h1 := hs _ _ hf (1, pos resCell1) (by simp [field2, eps2_1, pos1_ne])
  rw [eps2_0] at h0
  rw [eps2_1] at h1
  linarith

/-- C113 is false for two frequencies as outputs: the gradient with respect to the first is lost, so that the gradient of their sum is
wrong even for a solver that returns eigenvectors of the Hermitian form. -/
theorem eig_two_outputs_false : ∃ G, eigNodeGrad (solve2 true) (realEps eps2) [(.value, some 1), (.value, some 1)] = some G ∧
    ¬ IsGradientAt (fun e => eigFreq (solve2 true) e + eigFreq (solve2 true) e) eps2 G := by
  obtain ⟨⟨ce, hce⟩, ch, hch⟩ := curl_defined sh2 d2 0
  obtain ⟨G, h1, h2⟩ := eig_gradient_partial sh2_pos (fun _ => one_pos) d2_uniform (fun _ => rfl) hce hch (solve2_normalised hce hch)
    eps2_pos (solve2_continuous _) (solve2_positive _) (solve2_isolated hce hch _) (hasDerivAt_id _) [] [] (by simp) (by simp)
  refine ⟨G, h1, fun hbad => ?_⟩
  have hsum := isGradient_comp h2 (Φ := fun x => 2 * x) (w := 2) (by simpa using (hasDerivAt_id (eigFreq (solve2 true) eps2)).const_mul 2)
  have heq : (fun e => 2 * id (eigFreq (solve2 true) e)) = fun e => eigFreq (solve2 true) e + eigFreq (solve2 true) e := by
    funext e
    simp only [id]
    ring
  rw [heq] at hsum
  have hG0 : G = 0 := by
    funext p
    have := congrFun (isGradient_unique hbad hsum) p
    simp only [Pi.zero_apply]
    linarith
  have hne : field2 eps2 ≠ 0 := (resonance2 hce hch eps2 eps2_pos).1
  have hv : (fun p => (Real.sqrt (eps2 p) : ℂ) * field2 eps2 p) ≠ 0 := by
    obtain ⟨p, hp⟩ := Function.ne_iff.1 hne
    apply Function.ne_iff.2
    refine ⟨p, mul_ne_zero ?_ hp⟩
    exact_mod_cast (Real.sqrt_pos.2 (eps2_pos p)).ne'
  have hscale := eig_gradient_scaling _ hv (freq2 eps2) eps2 eps2_pos
  have hGv : G = domegaDeps (fun p => (Real.sqrt (eps2 p) : ℂ) * field2 eps2 p) (freq2 eps2) (realEps eps2) := by
    have h3 : eigNodeGrad (solve2 true) (realEps eps2) [(.value, some 1)]
        = some (domegaDeps (fun p => (Real.sqrt (eps2 p) : ℂ) * field2 eps2 p) (freq2 eps2) (realEps eps2)) := by
      simp [eigNodeGrad, eigRun, solve2, pickGrad, realEps]
    rw [List.nil_append] at h1
    exact Option.some.inj (h1.symm.trans h3)
  rw [← hGv, hG0] at hscale
  have hp := solve2_positive true
  rw [solve2_freq] at hp
  simp at hscale
  linarith

/-- C113: gradients with respect to the fields of the resonance are dropped without an error. -/
theorem eig_field_output_ignored {n : Nat} (solve : EigSolver n) (eps : VField n) (g1 g2 : ℝ) :
    eigNodeGrad solve eps [(.value, some g1), (.other, some g2)] = eigNodeGrad solve eps [(.value, some g1)] := by
  rfl

/-- C113: without a frequency among the outputs, or with one that is not used, the gradient raises. -/
theorem eig_no_output {n : Nat} (solve : EigSolver n) (eps : VField n) (B : List (EigOut × Option ℝ)) (g : Option ℝ) :
    eigNodeGrad solve eps [(.other, g)] = none ∧ eigNodeGrad solve eps ((.value, none) :: B) = none := by
  constructor <;> simp [eigNodeGrad, pickGrad]

end Verif.Fdfd
