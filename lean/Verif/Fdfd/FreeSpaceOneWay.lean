import Verif.Fdfd.FreeSpaceSource
/-
Property C94 (fourth part): what the current of a source radiates.
-/
namespace Verif.Fdfd.FreeSpace
open Matrix
variable {sh : Shape}
set_option linter.unusedVariables false
set_option linter.unusedSimpArgs false

/-! ### Specification -/

/-- The curls of the wave equation on the grid, with a Bloch vector. -/
noncomputable def curlF (d : Dxes) (k : Fin 3 → ℂ) (E : FieldT sh) : FieldT sh := fun a c =>
  fwdDiff d.e k (a + 1) (E (a + 2)) c - fwdDiff d.e k (a + 2) (E (a + 1)) c
noncomputable def curlB (d : Dxes) (k : Fin 3 → ℂ) (H : FieldT sh) : FieldT sh := fun a c =>
  backDiff d.h k (a + 1) (H (a + 2)) c - backDiff d.h k (a + 2) (H (a + 1)) c

/-- What is left of the wave equation, `curl curl E - omega² eps E`. -/
noncomputable def waveLeft (d : Dxes) (k : Fin 3 → ℂ) (omega : ℂ) (eps E : FieldT sh) : FieldT sh := fun a c =>
  curlB d k (curlF d k E) a c - omega ^ 2 * eps a c * E a c

/-- The planes on the side a source emits to. -/
def Lit (polarity : ℝ) (ind i : Nat) : Prop := if polarity = -1 then i < ind else ind ≤ i

open Classical in
/-- The field on that side, zero on the other one. -/
noncomputable def oneSided (axis : Fin 3) (polarity : ℝ) (ind : Nat) (E : FieldT sh) : FieldT sh := fun a c =>
  if Lit polarity ind (c axis).val then E a c else 0

/-! ### The wave operator, cell by cell -/

theorem eFull_pointwise (d : Dxes) (omega : ℂ) (eps E : FieldT sh) (k : Fin 3 → ℂ) (A : Mat3 sh.size)
    (hA : eFull sh omega d (vecF eps) none none none k 0 = some A) (a : Fin 3) (c : Cell sh) :
    (A *ᵥ vecF E) (a, pos c) = waveLeft d k omega eps E a c := by
  obtain ⟨⟨ce, hce⟩, ⟨ch, hch⟩⟩ := curl_defined sh d k
  rw [eFull, hce, hch] at hA
  simp only [Option.bind_some, Option.map_some, Option.some.injEq, maskMat, invMat, Matrix.mul_one, Matrix.one_mul] at hA
  subst hA
  have h1 : IsVec (curlF d k E) (ce *ᵥ vecF E) := by
    intro a c
    obtain ⟨h0, h1, h2⟩ := curl_e_pointwise d k ce hce E (vecF E) (vecF_isVec E) c
    match a with
    | 0 => exact h0
    | 1 => exact h1
    | 2 => exact h2
  obtain ⟨g0, g1, g2⟩ := curl_h_pointwise d k ch hch _ _ h1 c
  rw [Matrix.sub_mulVec, Pi.sub_apply, ← Matrix.mulVec_mulVec, Matrix.smul_mulVec, Pi.smul_apply, Matrix.mulVec_diagonal, smul_eq_mul,
    vecF_isVec, vecF_isVec, waveLeft, mul_assoc]
  congr 1
  match a with
  | 0 => exact g0
  | 1 => exact g1
  | 2 => exact g2

theorem next_val (b axis : Fin 3) (c : Cell sh) (h : (c axis).val + 1 < sh axis) :
    (nextCell b c axis).val = (c axis).val ∨ (b = axis ∧ (nextCell b c axis).val = (c axis).val + 1) := by
  by_cases hb : b = axis
  · subst hb
    right
    refine ⟨rfl, ?_⟩
    rw [nextCell, if_pos rfl]
    exact Nat.mod_eq_of_lt h
  · left
    rw [nextCell, if_neg (fun e => hb e.symm)]

theorem prev_val (b axis : Fin 3) (c : Cell sh) (h : 1 ≤ (c axis).val) :
    (prevCell b c axis).val = (c axis).val ∨ (b = axis ∧ (prevCell b c axis).val + 1 = (c axis).val) := by
  by_cases hb : b = axis
  · subst hb
    right
    refine ⟨rfl, ?_⟩
    rw [prevCell, if_pos rfl]
    have h2 := (c b).isLt
    have e : (c b).val + (sh b - 1) = ((c b).val - 1) + sh b := by omega
    show ((c b).val + (sh b - 1)) % sh b + 1 = _
    rw [e, Nat.add_mod_right, Nat.mod_eq_of_lt (by omega)]
    omega
  · left
    rw [prevCell, if_neg (fun e => hb e.symm)]

/-- The wave equation at a plane only uses the field at this plane and the two beside it. -/
theorem waveLeft_congr (d : Dxes) (k : Fin 3 → ℂ) (omega : ℂ) (eps E E' : FieldT sh) (axis a : Fin 3) (c : Cell sh)
    (h1 : 1 ≤ (c axis).val) (h2 : (c axis).val + 1 < sh axis)
    (h : ∀ b c', (c' axis).val ≤ (c axis).val + 1 → (c axis).val ≤ (c' axis).val + 1 → E b c' = E' b c') :
    waveLeft d k omega eps E a c = waveLeft d k omega eps E' a c := by
  have hF : ∀ b c', (c' axis).val ≤ (c axis).val → (c axis).val ≤ (c' axis).val + 1 → curlF d k E b c' = curlF d k E' b c' := by
    intro b c' ha hb
    have hn : ∀ b' e, E e (nextCell b' c') = E' e (nextCell b' c') := fun b' e => by
      rcases next_val b' axis c' (by omega) with h3 | ⟨_, h3⟩
      · exact h e _ (by omega) (by omega)
      · exact h e _ (by omega) (by omega)
    have hc : ∀ e, E e c' = E' e c' := fun e => h e c' (by omega) (by omega)
    simp only [curlF, fwdDiff, hn, hc]
  have hp : ∀ b' e, curlF d k E e (prevCell b' c) = curlF d k E' e (prevCell b' c) := fun b' e => by
    rcases prev_val b' axis c h1 with h3 | ⟨_, h3⟩
    · exact hF e _ (by omega) (by omega)
    · exact hF e _ (by omega) (by omega)
  have hc : ∀ e, curlF d k E e c = curlF d k E' e c := fun e => hF e c (by omega) (by omega)
  simp only [waveLeft, curlB, backDiff, hp, hc, h a c (by omega) (by omega)]

theorem waveLeft_zero (d : Dxes) (k : Fin 3 → ℂ) (omega : ℂ) (eps : FieldT sh) (a : Fin 3) (c : Cell sh) :
    waveLeft d k omega eps (fun _ _ => 0) a c = 0 := by
  simp [waveLeft, curlB, curlF, fwdDiff, backDiff]

theorem halfField_eq (axis : Fin 3) (sl : Slc) (polarity : ℝ) (E : FieldT sh) :
    halfField axis sl polarity E = oneSided axis polarity (planeIndex axis sl polarity) E := by
  classical
  funext a c
  rw [halfField, oneSided]
  have : (if polarity = -1 then (c axis).val < planeIndex axis sl polarity else planeIndex axis sl polarity ≤ (c axis).val) ↔
      Lit polarity (planeIndex axis sl polarity) (c axis).val := Iff.rfl
  by_cases h : Lit polarity (planeIndex axis sl polarity) (c axis).val
  · rw [if_pos h, if_pos (this.2 h)]
  · rw [if_neg h, if_neg (fun e => h (this.1 e))]

/-- Away from the two planes at the source the one-sided field has on its side what the wave has, and nothing on the other side. -/
theorem oneSided_wave (d : Dxes) (k : Fin 3 → ℂ) (omega : ℂ) (eps E : FieldT sh) (axis a : Fin 3) (polarity : ℝ) (ind : Nat) (c : Cell sh)
    (h1 : 1 ≤ (c axis).val) (h2 : (c axis).val + 1 < sh axis) (h3 : (c axis).val ≠ ind) (h4 : (c axis).val + 1 ≠ ind) :
    (Lit polarity ind (c axis).val → waveLeft d k omega eps (oneSided axis polarity ind E) a c = waveLeft d k omega eps E a c) ∧
      (¬ Lit polarity ind (c axis).val → waveLeft d k omega eps (oneSided axis polarity ind E) a c = 0) := by
  have hl : ∀ i : Nat, i ≤ (c axis).val + 1 → (c axis).val ≤ i + 1 → (Lit polarity ind i ↔ Lit polarity ind (c axis).val) := by
    intro i hi1 hi2
    unfold Lit
    split <;> omega
  constructor
  · intro hL
    apply waveLeft_congr d k omega eps _ _ axis a c h1 h2
    intro b c' hc1 hc2
    rw [oneSided, if_pos ((hl _ hc1 hc2).2 hL)]
  · intro hL
    rw [← waveLeft_zero d k omega eps a c]
    apply waveLeft_congr d k omega eps _ _ axis a c h1 h2
    intro b c' hc1 hc2
    rw [oneSided, if_neg (fun h => hL ((hl _ hc1 hc2).1 h))]

/-! ### The current -/

theorem inPair_iff (n ind i : Nat) (h : 1 ≤ ind) : inPair n ind i ↔ i = ind ∨ i + 1 = ind := by
  rw [inPair, if_neg (by omega)]
  omega

theorem current_value {g : EpsGrid sh} {omega : ℝ} {axis : Fin 3} {sl : Slc} {polarity : ℝ} {fl : Fields sh} {J : FieldT sh}
    (h : currentOf g omega axis sl polarity fl = some J) (a : Fin 3) (c : Cell sh) :
    (Across sl axis c ∧ inPair (sh axis) (planeIndex axis sl polarity) (c axis).val → J a c = 1 / (-1 * Complex.I * omega) *
      waveLeft g.d (fun b => (fl.wavevector b : ℂ)) omega g.eps (oneSided axis polarity (planeIndex axis sl polarity) fl.E) a c) ∧
    (¬ (Across sl axis c ∧ inPair (sh axis) (planeIndex axis sl polarity) (c axis).val) → J a c = 0) := by
  rw [currentOf, Option.map_eq_some_iff] at h
  obtain ⟨A, hA, rfl⟩ := h
  constructor
  · intro hc
    simp only []
    rw [if_pos (show (∀ b, _) ∧ _ from hc), unvecF, Pi.smul_apply, smul_eq_mul, eFull_pointwise _ _ _ _ _ _ hA, halfField_eq]
  · intro hc
    simp only []
    rw [if_neg (show ¬ ((∀ b, _) ∧ _) from hc)]

/-- C94: the current flows only in the slices, in the plane of the source and the one before it. -/
theorem current_support (g : EpsGrid sh) (omega : ℝ) (axis : Fin 3) (sl : Slc) (polarity : ℝ) (fl : Fields sh) (J : FieldT sh)
    (h : currentOf g omega axis sl polarity fl = some J) (hind : 1 ≤ planeIndex axis sl polarity) (a : Fin 3) (c : Cell sh)
    (hJ : J a c ≠ 0) : (∀ b, b ≠ axis → sl.lo b ≤ (c b).val ∧ (c b).val < sl.hi b) ∧
      ((c axis).val = planeIndex axis sl polarity ∨ (c axis).val + 1 = planeIndex axis sl polarity) := by
  by_contra hc
  refine hJ ((current_value h a c).2 fun h' => hc ⟨h'.1, (inPair_iff _ _ _ hind).1 h'.2⟩)

/-- C94: a source across the whole grid emits to one side: the field of the wave on the side of its polarity, and zero on the other side,
solves Maxwell's equations with the current, except for what the wave itself leaves of them beyond the source. The planes where the
grid wraps around are left out. -/
theorem emits_one_way (g : EpsGrid sh) (omega : ℝ) (hω : omega ≠ 0) (axis : Fin 3) (sl : Slc) (polarity : ℝ) (fl : Fields sh)
    (J : FieldT sh) (h : currentOf g omega axis sl polarity fl = some J) (hind : 1 ≤ planeIndex axis sl polarity)
    (hwhole : ∀ b, b ≠ axis → sl.lo b = 0 ∧ sl.hi b = sh b) (a : Fin 3) (c : Cell sh)
    (h1 : 1 ≤ (c axis).val) (h2 : (c axis).val + 1 < sh axis) :
    waveLeft g.d (fun b => (fl.wavevector b : ℂ)) omega g.eps (oneSided axis polarity (planeIndex axis sl polarity) fl.E) a c =
      -Complex.I * omega * J a c +
        open Classical in if Lit polarity (planeIndex axis sl polarity) (c axis).val ∧ (c axis).val ≠ planeIndex axis sl polarity ∧
            (c axis).val + 1 ≠ planeIndex axis sl polarity
          then waveLeft g.d (fun b => (fl.wavevector b : ℂ)) omega g.eps fl.E a c else 0 := by
  have hI := Complex.I_ne_zero
  have hω' : (omega : ℂ) ≠ 0 := Complex.ofReal_ne_zero.2 hω
  have hA : Across sl axis c := fun b hb => by
    obtain ⟨e1, e2⟩ := hwhole b hb
    have := (c b).isLt
    omega
  obtain ⟨v1, v2⟩ := current_value h a c
  rw [inPair_iff _ _ _ hind] at v1 v2
  by_cases hp : (c axis).val = planeIndex axis sl polarity ∨ (c axis).val + 1 = planeIndex axis sl polarity
  · rw [v1 ⟨hA, hp⟩, if_neg (by rintro ⟨_, h3, h4⟩; exact hp.elim h3 h4), add_zero]
    field_simp
  · have h3 : (c axis).val ≠ planeIndex axis sl polarity := fun e => hp (Or.inl e)
    have h4 : (c axis).val + 1 ≠ planeIndex axis sl polarity := fun e => hp (Or.inr e)
    rw [v2 (fun h' => hp h'.2), mul_zero, zero_add]
    have ho := oneSided_wave g.d (fun b => (fl.wavevector b : ℂ)) omega g.eps fl.E axis a polarity (planeIndex axis sl polarity) c h1 h2 h3 h4
    by_cases hL : Lit polarity (planeIndex axis sl polarity) (c axis).val
    · rw [if_pos ⟨hL, h3, h4⟩, ho.1 hL]
    · rw [if_neg (fun h' => hL h'.1), ho.2 hL]

/-- C94, false in the first plane: a source at the first plane of the grid has no current at all. -/
theorem first_plane_false (g : EpsGrid sh) (omega : ℝ) (axis : Fin 3) (sl : Slc) (polarity : ℝ) (fl : Fields sh) (J : FieldT sh)
    (h : currentOf g omega axis sl polarity fl = some J) (hind : planeIndex axis sl polarity = 0) (hn : 2 ≤ sh axis)
    (a : Fin 3) (c : Cell sh) : J a c = 0 := by
  refine (current_value h a c).2 ?_
  rintro ⟨_, hp⟩
  rw [inPair, hind, if_pos rfl] at hp
  omega

theorem current_exists (g : EpsGrid sh) (omega : ℝ) (axis : Fin 3) (sl : Slc) (polarity : ℝ) (fl : Fields sh) :
    ∃ J, currentOf g omega axis sl polarity fl = some J := by
  obtain ⟨A, hA⟩ := eFull_defined sh omega g.d (vecF g.eps) none none none (fun a => (fl.wavevector a : ℂ))
  exact ⟨_, by rw [currentOf, hA, Option.map_some]⟩

/-- A column of eight cells with the source at the fourth one. -/
noncomputable def tower : EpsGrid ![1, 1, 8] := ⟨fun _ _ i => i, ⟨fun _ _ => 1, fun _ _ => 1⟩, fun _ _ => 1⟩
def fourth : Slc := ⟨![0, 0, 3], ![1, 1, 4]⟩

example : 1 ≤ planeIndex 2 fourth 1 ∧ (∀ b : Fin 3, b ≠ 2 → fourth.lo b = 0 ∧ fourth.hi b = (![1, 1, 8] : Shape) b) := by
  constructor
  · rw [planeIndex, if_neg (by norm_num)]; decide
  · decide

/-! ### Plane waves at normal incidence -/

/-- The cells have the widths `w` and the positions of each component are spaced by them. -/
def Even (g : EpsGrid sh) (w : Fin 3 → ℝ) : Prop :=
  Uniform sh g.d w ∧ ∀ a b i, g.xyz a b (i + 1) = g.xyz a b i + w b

theorem even_step {g : EpsGrid sh} {w : Fin 3 → ℝ} (hg : Even g w) {axis : Fin 3} {fl : Fields sh} {s : ℂ} {K : ℝ} {e : Fin 3 → ℝ}
    (hw : fl.wavevector = K • unitVec axis)
    (hE : ∀ a c, fl.E a c = s * Complex.exp (-Complex.I * ((∑ b, fl.wavevector b * g.xyz a b (c b).val : ℝ) : ℂ)) * (e a : ℂ))
    (a : Fin 3) (c c' : Cell sh) :
    ((c' axis).val = (c axis).val → fl.E a c' = fl.E a c) ∧
      ((c' axis).val = (c axis).val + 1 → fl.E a c' = Complex.exp (-Complex.I * ((K * w axis : ℝ) : ℂ)) * fl.E a c) := by
  have hs : ∀ c : Cell sh, ∑ b, fl.wavevector b * g.xyz a b (c b).val = K * g.xyz a axis (c axis).val := fun c => by
    rw [hw, Finset.sum_eq_single axis]
    · simp [unitVec]
    · intro b _ hb; simp [unitVec, hb]
    · intro h; exact absurd (Finset.mem_univ _) h
  simp only [hE, hs]
  constructor
  · intro h; rw [h]
  · intro h
    rw [h, hg.2, mul_add, Complex.ofReal_add, mul_add, Complex.exp_add]
    ring

theorem fwd_same (d : Dxes) (k : Fin 3 → ℂ) (b : Fin 3) (F : Cell sh → ℂ) (c : Cell sh) (hk : k b = 0)
    (h : F (nextCell b c) = F c) : fwdDiff d.e k b F c = 0 := by
  have : upPhase d.e k b c = 1 := by
    rw [upPhase]
    split
    · rw [hk, zero_mul, mul_zero, neg_zero, Complex.exp_zero]
    · rfl
  rw [fwdDiff, this, h, one_mul, sub_self, zero_div]

theorem back_same (d : Dxes) (k : Fin 3 → ℂ) (b : Fin 3) (F : Cell sh → ℂ) (c : Cell sh) (hk : k b = 0)
    (h : F (prevCell b c) = F c) : backDiff d.h k b F c = 0 := by
  have : downPhase d.h k b c = 1 := by
    rw [downPhase]
    split
    · rw [hk, zero_mul, mul_zero, Complex.exp_zero]
    · rfl
  rw [backDiff, this, h, one_mul, sub_self, zero_div]

/-- The square of the wavenumber that the grid gives a wave of wavenumber `K`. -/
noncomputable def gridSquare (K w : ℝ) : ℝ := (2 / w * Real.sin (K * w / 2)) ^ 2

theorem grid_square_exp (K w : ℝ) (hw : w ≠ 0) :
    (Complex.exp (-Complex.I * ((K * w : ℝ) : ℂ)) - 1) / w * ((1 - Complex.exp (Complex.I * ((K * w : ℝ) : ℂ))) / w) =
      -(gridSquare K w : ℂ) := by
  have hw' : (w : ℂ) ≠ 0 := Complex.ofReal_ne_zero.2 hw
  have h1 : Complex.exp (-Complex.I * ((K * w : ℝ) : ℂ)) * Complex.exp (Complex.I * ((K * w : ℝ) : ℂ)) = 1 := by
    rw [← Complex.exp_add]; simp
  have h2 : Complex.exp (-Complex.I * ((K * w : ℝ) : ℂ)) + Complex.exp (Complex.I * ((K * w : ℝ) : ℂ)) =
      2 * ((Real.cos (K * w) : ℝ) : ℂ) := by
    rw [Complex.ofReal_cos, Complex.two_cos]
    rw [add_comm]
    congr 2 <;> ring
  have h3 : Real.cos (K * w) = 1 - 2 * Real.sin (K * w / 2) ^ 2 := by
    have h3 := Real.cos_two_mul (K * w / 2)
    have h4 := Real.sin_sq_add_cos_sq (K * w / 2)
    rw [show 2 * (K * w / 2) = K * w by ring] at h3
    linarith
  rw [div_mul_div_comm, div_eq_iff (mul_ne_zero hw' hw'), gridSquare]
  have h5 : (((2 / w * Real.sin (K * w / 2)) ^ 2 : ℝ) : ℂ) * ((w : ℂ) * w) = ((4 * Real.sin (K * w / 2) ^ 2 : ℝ) : ℂ) := by
    rw [← Complex.ofReal_mul, ← Complex.ofReal_mul]
    congr 1
    field_simp
    ring
  refine Eq.trans ?_ (neg_mul _ _).symm
  rw [h5]
  have h6 : ((4 * Real.sin (K * w / 2) ^ 2 : ℝ) : ℂ) = 2 - 2 * ((Real.cos (K * w) : ℝ) : ℂ) := by
    rw [h3]; push_cast; ring
  rw [h6, ← h2]
  linear_combination -h1

theorem normal_wave {g : EpsGrid sh} {w : Fin 3 → ℝ} (hg : Even g w) {axis : Fin 3} (hw0 : w axis ≠ 0) {fl : Fields sh} {s : ℂ} {K : ℝ}
    {e : Fin 3 → ℝ} (omega : ℂ) (hw : fl.wavevector = K • unitVec axis) (he : e axis = 0)
    (hE : ∀ a c, fl.E a c = s * Complex.exp (-Complex.I * ((∑ b, fl.wavevector b * g.xyz a b (c b).val : ℝ) : ℂ)) * (e a : ℂ))
    (a : Fin 3) (c : Cell sh) (h1 : 1 ≤ (c axis).val) (h2 : (c axis).val + 1 < sh axis) :
    waveLeft g.d (fun b => (fl.wavevector b : ℂ)) omega g.eps fl.E a c =
      ((gridSquare K (w axis) : ℂ) - omega ^ 2 * g.eps a c) * fl.E a c := by
  have hst := fun a c c' => even_step hg hw hE a c c'
  have hk : ∀ b, b ≠ axis → ((fl.wavevector b : ℝ) : ℂ) = 0 := fun b hb => by rw [hw]; simp [unitVec, hb]
  have hEa : ∀ c, fl.E axis c = 0 := fun c => by rw [hE, he]; simp
  have hde : ∀ i, i < sh axis → g.d.e axis i = w axis ∧ g.d.h axis i = w axis := fun i hi => hg.1 axis i hi
  set k : Fin 3 → ℂ := fun b => (fl.wavevector b : ℂ) with hkdef
  set q : ℂ := (Complex.exp (-Complex.I * ((K * w axis : ℝ) : ℂ)) - 1) / w axis with hq
  -- forward differences
  have f1 : ∀ a c', (c' axis).val + 1 < sh axis → fwdDiff g.d.e k axis (fl.E a) c' = q * fl.E a c' := by
    intro a c' hc
    have hn : (nextCell axis c' axis).val = (c' axis).val + 1 := by
      rw [nextCell, if_pos rfl]; exact Nat.mod_eq_of_lt hc
    rw [fwdDiff, upPhase, if_neg (by omega), one_mul, (hst a c' _).2 hn, (hde _ (c' axis).isLt).1, hq]
    ring
  have f0 : ∀ b a c', b ≠ axis → fwdDiff g.d.e k b (fl.E a) c' = 0 := by
    intro b a c' hb
    exact fwd_same g.d k b (fl.E a) c' (hk b hb) ((hst a c' _).1 (by rw [nextCell, if_neg hb.symm]))
  have d0 : ∀ a : Fin 3, a + 1 ≠ a ∧ a + 2 ≠ a ∧ a + 1 + 1 = a + 2 ∧ a + 1 + 2 = a ∧ a + 2 + 1 = a ∧ a + 2 + 2 = a + 1 := by decide
  obtain ⟨n1, n2, e1, e2, e3, e4⟩ := d0 axis
  have dall : ∀ axis a : Fin 3, a = axis ∨ a = axis + 1 ∨ a = axis + 2 := by decide
  -- the curl of E
  have c0 : ∀ c', curlF g.d k fl.E axis c' = 0 := fun c' => by rw [curlF, f0 _ _ _ n1, f0 _ _ _ n2, sub_self]
  have c1 : ∀ c', (c' axis).val + 1 < sh axis → curlF g.d k fl.E (axis + 1) c' = -(q * fl.E (axis + 2) c') := fun c' hc => by
    rw [curlF, e1, e2, f0 _ _ _ n2, f1 _ _ hc, zero_sub]
  have c2 : ∀ c', (c' axis).val + 1 < sh axis → curlF g.d k fl.E (axis + 2) c' = q * fl.E (axis + 1) c' := fun c' hc => by
    rw [curlF, e3, e4, f0 _ _ _ n1, f1 _ _ hc, sub_zero]
  have hp : (prevCell axis c axis).val + 1 = (c axis).val := (prev_val axis axis c h1).elim
    (fun h => by
      exfalso
      rw [prevCell, if_pos rfl] at h
      have h3 := (c axis).isLt
      have h4 : (c axis).val + (sh axis - 1) = ((c axis).val - 1) + sh axis := by omega
      change ((c axis).val + (sh axis - 1)) % sh axis = _ at h
      rw [h4, Nat.add_mod_right, Nat.mod_eq_of_lt (by omega)] at h
      omega) (fun h => h.2)
  have hcp : ∀ a, fl.E a c = Complex.exp (-Complex.I * ((K * w axis : ℝ) : ℂ)) * fl.E a (prevCell axis c) := fun a =>
    (hst a (prevCell axis c) c).2 hp.symm
  have hpc : ∀ a, fl.E a (prevCell axis c) = Complex.exp (Complex.I * ((K * w axis : ℝ) : ℂ)) * fl.E a c := fun a => by
    rw [hcp, ← mul_assoc, ← Complex.exp_add]
    simp
  have hq2 := grid_square_exp K (w axis) hw0
  rw [← hq] at hq2
  have hbp : ∀ b, b ≠ axis → (prevCell b c axis).val = (c axis).val := fun b hb => by rw [prevCell, if_neg hb.symm]
  have b0 : ∀ b F, b ≠ axis → (∀ c', (c' axis).val = (c axis).val → F c' = F c) → backDiff g.d.h k b F c = 0 := fun b F hb hF =>
    back_same g.d k b F c (hk b hb) (hF _ (hbp b hb))
  have b1 : ∀ (F : Cell sh → ℂ) (a : Fin 3) (r : ℂ), F c = r * fl.E a c → F (prevCell axis c) = r * fl.E a (prevCell axis c) →
      backDiff g.d.h k axis F c = r * ((1 - Complex.exp (Complex.I * ((K * w axis : ℝ) : ℂ))) / w axis) * fl.E a c := by
    intro F a r hF1 hF2
    rw [backDiff, downPhase, if_neg (by omega), one_mul, hF1, hF2, hpc, (hde _ (c axis).isLt).2]
    ring
  rcases dall axis a with ha | ha | ha <;> subst ha
  · rw [waveLeft, curlB, hEa, b0 _ _ n1, b0 _ _ n2]
    · ring
    · intro c' hc'; rw [c1 c' (by omega), c1 c h2, (hst _ c c').1 hc']
    · intro c' hc'; rw [c2 c' (by omega), c2 c h2, (hst _ c c').1 hc']
  · rw [waveLeft, curlB, e1, e2, b0 _ _ n2, b1 _ (axis + 1) q (c2 c h2) (c2 _ (by omega))]
    · linear_combination -hq2 * fl.E (axis + 1) c
    · intro c' hc'; rw [c0, c0]
  · rw [waveLeft, curlB, e3, e4, b0 _ _ n1, b1 _ (axis + 2) (-q) (by rw [c1 c h2]; ring) (by rw [c1 _ (by omega)]; ring)]
    · linear_combination -hq2 * fl.E (axis + 2) c
    · intro c' hc'; rw [c0, c0]

/-- The wavenumber of the grid differs from the one of the medium in the fourth order. -/
theorem gridSquare_error (K w : ℝ) (hw : 0 < w) : |gridSquare K w - K ^ 2| ≤ K ^ 4 * w ^ 2 / 12 := by
  have key : ∀ x : ℝ, 0 ≤ x → 0 ≤ x ^ 2 - Real.sin x ^ 2 ∧ x ^ 2 - Real.sin x ^ 2 ≤ x ^ 4 / 3 := by
    intro x hx
    have h1 : |Real.sin x| ≤ x := by rw [← abs_of_nonneg hx]; simpa using Real.abs_sin_le_abs (x := |x|)
    have h2 : Real.sin x ^ 2 ≤ x ^ 2 := by
      rw [← sq_abs (Real.sin x)]; exact pow_le_pow_left₀ (abs_nonneg _) h1 2
    refine ⟨by linarith, ?_⟩
    have h3 : x - x ^ 3 / 6 ≤ Real.sin x := Real.sin_ge_sub_cube hx
    by_cases h4 : 0 ≤ x - x ^ 3 / 6
    · have h5 : (x - x ^ 3 / 6) ^ 2 ≤ Real.sin x ^ 2 := pow_le_pow_left₀ h4 h3 2
      have h6 : (x - x ^ 3 / 6) ^ 2 = x ^ 2 - x ^ 4 / 3 + (x ^ 3 / 6) ^ 2 := by ring
      have h7 := sq_nonneg (x ^ 3 / 6)
      linarith
    · have hx0 : 0 < x := lt_of_le_of_ne hx (fun e => h4 (by rw [← e]; norm_num))
      have h5 : 6 < x ^ 2 := by
        by_contra h
        apply h4
        have : x - x ^ 3 / 6 = x * (1 - x ^ 2 / 6) := by ring
        rw [this]
        exact mul_nonneg hx (by linarith)
      have h6 : x ^ 2 * 1 ≤ x ^ 2 * (x ^ 2 / 3) := mul_le_mul_of_nonneg_left (by linarith) (sq_nonneg x)
      have h7 := sq_nonneg (Real.sin x)
      have h8 : x ^ 2 * (x ^ 2 / 3) = x ^ 4 / 3 := by ring
      linarith
  have hx := key |K * w / 2| (abs_nonneg _)
  have hs : Real.sin |K * w / 2| ^ 2 = Real.sin (K * w / 2) ^ 2 := by
    rcases abs_choice (K * w / 2) with h | h <;> rw [h]
    rw [Real.sin_neg, neg_sq]
  have h4 : |K * w / 2| ^ 4 = (K * w / 2) ^ 4 := Even.pow_abs ⟨2, rfl⟩ _
  rw [hs, sq_abs, h4] at hx
  have e : gridSquare K w - K ^ 2 = -(4 / w ^ 2 * ((K * w / 2) ^ 2 - Real.sin (K * w / 2) ^ 2)) := by
    rw [gridSquare]; field_simp; ring
  rw [e, abs_neg, abs_of_nonneg (mul_nonneg (by positivity) hx.1)]
  calc 4 / w ^ 2 * ((K * w / 2) ^ 2 - Real.sin (K * w / 2) ^ 2) ≤ 4 / w ^ 2 * ((K * w / 2) ^ 4 / 3) :=
        mul_le_mul_of_nonneg_left hx.2 (by positivity)
    _ = K ^ 4 * w ^ 2 / 12 := by field_simp; ring

/-- C94: at normal incidence in a uniform medium, on an even grid, a plane wave leaves of the wave equation only the dispersion of the grid:
at most `(omega n)^4 w² / 12` times the field, where `w` is the width of the cells along the axis. -/
theorem plane_wave_residual (g : EpsGrid sh) (w : Fin 3 → ℝ) (hg : Even g w) (mu : Option (FieldT sh)) (omega : ℝ) (axis : Fin 3)
    (sl : Slc) (m : Aim) (power : ℝ) (hw : 0 < w axis) (hm : m.Valid) (hθ : m.theta = 0) (hω : 0 < omega) (he : 0 < epsVal g sl)
    (huni : ∀ a c, g.eps a c = (epsVal g sl : ℂ)) (fl : Fields sh)
    (h : vectorFields g mu omega axis sl (planeScalar omega m.polarity (epsVal g sl)) m power = some fl)
    (a : Fin 3) (c : Cell sh) (h1 : 1 ≤ (c axis).val) (h2 : (c axis).val + 1 < sh axis) :
    ‖waveLeft g.d (fun b => (fl.wavevector b : ℂ)) omega g.eps fl.E a c‖ ≤
      (omega * Real.sqrt (epsVal g sl)) ^ 4 * w axis ^ 2 / 12 * ‖fl.E a c‖ := by
  obtain ⟨hk, hE⟩ := plane_wave_field g mu omega axis sl m power hm hω he fl h
  have hh := (heading_cases axis m hm).2.1 hθ
  have hperp := (heading_polarization axis m hm).2.2
  have hp2 : m.polarity ^ 2 = 1 := by rcases hm with e | e <;> rw [e] <;> norm_num
  have hpa : polarization axis m axis = 0 := by
    rw [hh, dotProduct, Finset.sum_eq_single axis] at hperp
    · have hp0 : m.polarity ≠ 0 := by intro e; rw [e] at hp2; norm_num at hp2
      simp only [Pi.smul_apply, unitVec, if_pos, smul_eq_mul, mul_one] at hperp
      exact (mul_eq_zero.1 hperp).resolve_right hp0
    · intro b _ hb; simp [unitVec, hb]
    · intro h; exact absurd (Finset.mem_univ _) h
  rw [hh, smul_smul] at hk
  rw [normal_wave hg hw.ne' (omega : ℂ) hk hpa hE a c h1 h2, norm_mul]
  refine mul_le_mul_of_nonneg_right ?_ (norm_nonneg _)
  have hK : (omega * Real.sqrt (epsVal g sl) * m.polarity) ^ 2 = omega ^ 2 * epsVal g sl := by
    rw [mul_pow, mul_pow, hp2, Real.sq_sqrt he.le, mul_one]
  have hK4 : (omega * Real.sqrt (epsVal g sl) * m.polarity) ^ 4 = (omega * Real.sqrt (epsVal g sl)) ^ 4 := by
    rw [mul_pow _ m.polarity, show m.polarity ^ 4 = (m.polarity ^ 2) ^ 2 by ring, hp2, one_pow, mul_one]
  have e : ((gridSquare (omega * Real.sqrt (epsVal g sl) * m.polarity) (w axis) : ℂ) - (omega : ℂ) ^ 2 * g.eps a c) =
      ((gridSquare (omega * Real.sqrt (epsVal g sl) * m.polarity) (w axis) -
        (omega * Real.sqrt (epsVal g sl) * m.polarity) ^ 2 : ℝ) : ℂ) := by
    rw [huni, hK]; push_cast; ring
  rw [e, Complex.norm_real, Real.norm_eq_abs, ← hK4]
  exact gridSquare_error _ _ hw

example : Even tower 1 ∧ (∀ a c, tower.eps a c = (epsVal tower fourth : ℂ)) := by
  refine ⟨⟨fun a i _ => ⟨?_, ?_⟩, fun a b i => ?_⟩, fun a c => ?_⟩
  · simp [tower]
  · simp [tower]
  · simp [tower]
  · rw [epsVal_const tower fourth 1 (fun _ _ => rfl)]
    · simp [tower]
    · refine ⟨fun b => match b with | 0 => (0 : Fin 1) | 1 => (0 : Fin 1) | 2 => (3 : Fin 8), fun b => ?_⟩
      fin_cases b <;> exact ⟨by decide, by decide⟩

end Verif.Fdfd.FreeSpace
