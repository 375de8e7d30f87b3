import Verif.Fdfd.WaveguideSource
import Verif.Fdfd.WaveguideProps
import Verif.Fdfd.CurlProps
import Verif.Fdfd.PoyntingProps
import Mathlib.Analysis.SpecialFunctions.Trigonometric.Bounds
import Mathlib.Analysis.SpecialFunctions.Trigonometric.Deriv
import Mathlib.Analysis.Calculus.Deriv.MeanValue
import Mathlib.Tactic.FinCases
/-
Properties C74 (the wavenumber of the discretised guide), C75 (the one-way source) and C76 (the axes of the cross-section).
-/
set_option linter.unusedSimpArgs false
namespace Verif.Fdfd
variable {sh : Shape}

/-! ### Specification -/

/-- Forward and backward differences on the grid. -/
noncomputable def dF (d : Dxes) (a : Fin 3) (f : Arr sh) (c : Cell sh) : ℂ := (f (nextCell a c) - f c) / d.e a (c a)
noncomputable def dB (d : Dxes) (a : Fin 3) (f : Arr sh) (c : Cell sh) : ℂ := (f c - f (prevCell a c)) / d.h a (c a)

/-- The curls, component `b`. -/
noncomputable def curlEAt (d : Dxes) (E : FieldT sh) (b : Fin 3) (c : Cell sh) : ℂ :=
  dF d (b + 1) (E (b + 2)) c - dF d (b + 2) (E (b + 1)) c
noncomputable def curlHAt (d : Dxes) (H : FieldT sh) (b : Fin 3) (c : Cell sh) : ℂ :=
  dB d (b + 1) (H (b + 2)) c - dB d (b + 2) (H (b + 1)) c

/-- The wave equation with the current `J`, component `b` at the cell `c`. -/
def WaveAt (d : Dxes) (ω : ℂ) (ε μ E J : FieldT sh) (b : Fin 3) (c : Cell sh) : Prop :=
  curlHAt d (fun b c => curlEAt d E b c / μ b c) b c - ω ^ 2 * ε b c * E b c = -Complex.I * ω * J b c

/-- The cell is not in the first or last plane along `a`, where the periodic differences wrap around. -/
def InnerCell (a : Fin 3) (c : Cell sh) : Prop := 1 ≤ (c a).val ∧ (c a).val + 1 < sh a

/-- Maxwell's equations without sources, away from the planes where the differences along `a` wrap around. -/
structure SourceFree (d : Dxes) (a : Fin 3) (ω : ℂ) (ε μ E H : FieldT sh) : Prop where
  e : ∀ b c, (c a).val + 1 < sh a → curlEAt d E b c = -Complex.I * ω * μ b c * H b c
  h : ∀ b c, 1 ≤ (c a).val → curlHAt d H b c = Complex.I * ω * ε b c * E b c

/-- The side of the plane `s` into which the source radiates. -/
def Behind (p : Int) (s n : Nat) : Prop := if p < 0 then s ≤ n else n < s
instance (p : Int) (s n : Nat) : Decidable (Behind p s n) := by unfold Behind; infer_instance

/-! ### Lemmas -/

theorem fnCurlE_at (d : Dxes) (E : FieldT sh) (b : Fin 3) (c : Cell sh) : fnCurlE d E b c = curlEAt d E b c := by
  have h : ∀ (a : Fin 3) (f : Arr sh) (c : Cell sh), fnDe d f a c = dF d a f c := fun a f c => by rw [fnDe, npRoll_fwd]; rfl
  match b with
  | 0 => exact congrArg₂ (· - ·) (h 1 _ c) (h 2 _ c)
  | 1 => exact congrArg₂ (· - ·) (h 2 _ c) (h 0 _ c)
  | 2 => exact congrArg₂ (· - ·) (h 0 _ c) (h 1 _ c)

theorem fnCurlH_at (d : Dxes) (H : FieldT sh) (b : Fin 3) (c : Cell sh) : fnCurlH d H b c = curlHAt d H b c := by
  have h : ∀ (a : Fin 3) (f : Arr sh) (c : Cell sh), fnDh d f a c = dB d a f c := fun a f c => by rw [fnDh, npRoll_back]; rfl
  match b with
  | 0 => exact congrArg₂ (· - ·) (h 1 _ c) (h 2 _ c)
  | 1 => exact congrArg₂ (· - ·) (h 2 _ c) (h 0 _ c)
  | 2 => exact congrArg₂ (· - ·) (h 0 _ c) (h 1 _ c)

/-- The wave equation is the one of the functional operator. -/
theorem waveAt_fnEFull (d : Dxes) (ω : ℂ) (ε μ E J : FieldT sh) (b : Fin 3) (c : Cell sh) :
    WaveAt d ω ε μ E J b c ↔
      fnEFull ω d ε (some fun b c => 1 / μ b c) E b c = -Complex.I * ω * J b c := by
  unfold WaveAt fnEFull
  simp only [fnCurlH_at, fnCurlE_at, div_mul_eq_mul_div, one_mul]

theorem curlE_cyc (d : Dxes) (E : FieldT sh) (a : Fin 3) (c : Cell sh) :
    curlEAt d E (a + 1) c = dF d (a + 2) (E a) c - dF d a (E (a + 2)) c ∧
    curlEAt d E (a + 2) c = dF d a (E (a + 1)) c - dF d (a + 1) (E a) c :=
  match a with
  | 0 => ⟨rfl, rfl⟩
  | 1 => ⟨rfl, rfl⟩
  | 2 => ⟨rfl, rfl⟩

theorem curlH_cyc (d : Dxes) (H : FieldT sh) (a : Fin 3) (c : Cell sh) :
    curlHAt d H (a + 1) c = dB d (a + 2) (H a) c - dB d a (H (a + 2)) c ∧
    curlHAt d H (a + 2) c = dB d a (H (a + 1)) c - dB d (a + 1) (H a) c :=
  match a with
  | 0 => ⟨rfl, rfl⟩
  | 1 => ⟨rfl, rfl⟩
  | 2 => ⟨rfl, rfl⟩

theorem forall_cyc (a : Fin 3) {P : Fin 3 → Prop} (h0 : P a) (h1 : P (a + 1)) (h2 : P (a + 2)) : ∀ b, P b := by
  match a with
  | 0 => exact vec3_forall.2 ⟨h0, h1, h2⟩
  | 1 => exact vec3_forall.2 ⟨h2, h0, h1⟩
  | 2 => exact vec3_forall.2 ⟨h1, h2, h0⟩

theorem next_other {a b : Fin 3} (h : b ≠ a) (c : Cell sh) : nextCell b c a = c a := by
  rw [nextCell, if_neg (Ne.symm h)]

theorem prev_other {a b : Fin 3} (h : b ≠ a) (c : Cell sh) : prevCell b c a = c a := by
  rw [prevCell, if_neg (Ne.symm h)]

theorem next_self (a : Fin 3) (c : Cell sh) (h : (c a).val + 1 < sh a) : (nextCell a c a).val = (c a).val + 1 := by
  simp only [nextCell, if_true]
  exact Nat.mod_eq_of_lt h

theorem prev_self (a : Fin 3) (c : Cell sh) (h : 1 ≤ (c a).val) : (prevCell a c a).val = (c a).val - 1 := by
  simp only [prevCell, if_true]
  have := (c a).isLt
  rw [show (c a).val + (sh a - 1) = ((c a).val - 1) + sh a by omega, Nat.add_mod_right, Nat.mod_eq_of_lt (by omega)]

theorem a1_ne (a : Fin 3) : a + 1 ≠ a := by revert a; decide
theorem a2_ne (a : Fin 3) : a + 2 ≠ a := by revert a; decide
theorem a12_ne (a : Fin 3) : a + 1 ≠ a + 2 := by revert a; decide

section product
variable (d : Dxes) (a : Fin 3) (θ : Nat → ℂ)

theorem dF_mul_other {b : Fin 3} (h : b ≠ a) (f : Arr sh) (c : Cell sh) :
    dF d b (fun c => θ (c a) * f c) c = θ (c a) * dF d b f c := by
  simp only [dF, next_other h]
  ring

theorem dB_mul_other {b : Fin 3} (h : b ≠ a) (f : Arr sh) (c : Cell sh) :
    dB d b (fun c => θ (c a) * f c) c = θ (c a) * dB d b f c := by
  simp only [dB, prev_other h]
  ring

theorem dF_mul_self (f : Arr sh) (c : Cell sh) (h : (c a).val + 1 < sh a) :
    dF d a (fun c => θ (c a) * f c) c =
      θ (c a) * dF d a f c + (θ ((c a).val + 1) - θ (c a)) * f (nextCell a c) / d.e a (c a) := by
  simp only [dF, next_self a c h]
  ring

theorem dB_mul_self (f : Arr sh) (c : Cell sh) (h : 1 ≤ (c a).val) :
    dB d a (fun c => θ (c a) * f c) c =
      θ (c a) * dB d a f c + (θ (c a) - θ ((c a).val - 1)) * f (prevCell a c) / d.h a (c a) := by
  simp only [dB, prev_self a c h]
  ring

end product

theorem dB_congr (d : Dxes) (b : Fin 3) {f g : Arr sh} {c : Cell sh} (h0 : f c = g c) (h1 : f (prevCell b c) = g (prevCell b c)) :
    dB d b f c = dB d b g c := by rw [dB, dB, h0, h1]

theorem dB_lin (d : Dxes) (b : Fin 3) (f g : Arr sh) (x y : ℂ) (c : Cell sh) :
    dB d b (fun c => x * f c + y * g c) c = x * dB d b f c + y * dB d b g c := by
  simp only [dB]; ring

/-- `M` of the source, by components. -/
theorem sourceM_comp (a : Fin 3) (p : Int) (E : FieldT sh) (c : Cell sh) :
    sourceM a p E a c = 0 ∧ sourceM a p E (a + 1) c = E (a + 2) (nextCell a c) * p ∧
    sourceM a p E (a + 2) c = -(E (a + 1) (nextCell a c) * p) := by
  have h : ∀ f : Arr sh, npRoll f (-1) a c = f (nextCell a c) := fun f => npRoll_fwd f a c
  simp only [← h]
  match a with
  | 0 => exact ⟨rfl, rfl, rfl⟩
  | 1 => exact ⟨rfl, rfl, rfl⟩
  | 2 => exact ⟨rfl, rfl, rfl⟩

theorem as2 (a : Fin 3) (x : Fin 3 → Arr sh) (c : Cell sh) : assign3 (srcOrder a) x (a + 2) c = x 2 c := by
  have h : a + 2 ≠ srcOrder a 0 ∧ a + 2 ≠ srcOrder a 1 := by revert a; decide
  rw [assign3, if_neg h.1, if_neg h.2]

theorem as1 (a : Fin 3) (x : Fin 3 → Arr sh) (c : Cell sh) : assign3 (srcOrder a) x (a + 1) c = x 1 c := by
  have h : a + 1 ≠ srcOrder a 0 ∧ a + 1 = srcOrder a 1 := by revert a; decide
  rw [assign3, if_neg h.1, if_pos h.2]

/-- The current by components. -/
theorem computeSource_comp (E H : FieldT sh) (β ω : ℂ) (d : Dxes) (a : Fin 3) (p : Int) (sl : Slc) (mu : Option (FieldT sh))
    (c : Cell sh) :
    let x := Complex.exp (Complex.I * (p : ℂ) * β * d.h a (sl.lo a))
    let K := curlHAt d (fun k c => sourceM a p E k c / (mu.getD fun _ _ => 1) k c)
    computeSource E H β ω d a p sl mu a c = (K a c / (-Complex.I * ω)) / d.h a (sl.lo a) ∧
    computeSource E H β ω d a p sl mu (a + 1) c = (x * H (a + 2) c * p + K (a + 1) c / (-Complex.I * ω)) / d.h a (sl.lo a) ∧
    computeSource E H β ω d a p sl mu (a + 2) c =
      (-(x * H (a + 1) c * p) + K (a + 2) c / (-Complex.I * ω)) / d.h a (sl.lo a) := by
  have hK : ∀ b, curlHAt d (fun k c => sourceM a p E k c / (mu.getD fun _ _ => 1) k c) b c =
      fnCurlH d (fun k c => sourceM a p E k c / (mu.getD fun _ _ => 1) k c) b c := fun b => (fnCurlH_at d _ b c).symm
  dsimp only
  simp only [hK]
  clear hK
  match a with
  | 0 =>
    refine ⟨congrArg (· / _) (zero_add _), ?_, ?_⟩
    · unfold computeSource
      refine congrArg (fun z => (z + _) / _) ((as1 0 _ c).trans ?_)
      rfl
    · unfold computeSource
      refine congrArg (fun z => (z + _) / _) ((as2 0 _ c).trans ?_)
      rfl
  | 1 =>
    refine ⟨congrArg (· / _) (zero_add _), ?_, ?_⟩
    · unfold computeSource
      refine congrArg (fun z => (z + _) / _) ((as1 1 _ c).trans ?_)
      rfl
    · unfold computeSource
      refine congrArg (fun z => (z + _) / _) ((as2 1 _ c).trans ?_)
      rfl
  | 2 =>
    refine ⟨congrArg (· / _) (zero_add _), ?_, ?_⟩
    · unfold computeSource
      refine congrArg (fun z => (z + _) / _) ((as1 2 _ c).trans ?_)
      rfl
    · unfold computeSource
      refine congrArg (fun z => (z + _) / _) ((as2 2 _ c).trans ?_)
      rfl

/-- The field of the source is one-way, for every field that solves Maxwell's equations without sources. -/
theorem one_way_core (d : Dxes) (a : Fin 3) (ω β w : ℂ) (hω : ω ≠ 0) (ε : FieldT sh) (mu : Option (FieldT sh))
    (hμ : ∀ b c, (mu.getD fun _ _ => 1) b c ≠ 0) (p : Int) (sl : Slc) (Em Hm E H : FieldT sh)
    (hM : SourceFree d a ω ε (mu.getD fun _ _ => 1) Em Hm) (θ : Nat → ℂ)
    (hθ : ∀ n, n + 1 < sh a → θ (n + 1) - θ n = if n + 1 = sl.lo a then (p : ℂ) else 0)
    (hdh : ∀ n, n < sh a → d.h a n = w) (hde : ∀ n, n < sh a → d.e a n = w) (hlo : sl.lo a < sh a)
    (hE : ∀ b c, b ≠ a → E b c = if (c a).val = sl.lo a then Em b c else 0)
    (hH : ∀ b c, b ≠ a → H b c = if (c a).val = sl.lo a then Hm b c else 0)
    (hph : ∀ b c, b ≠ a → 1 ≤ (c a).val → (c a).val = sl.lo a →
      Hm b (prevCell a c) = Complex.exp (Complex.I * (p : ℂ) * β * w) * Hm b c)
    (b : Fin 3) (c : Cell sh) (hc : InnerCell a c) :
    WaveAt d ω ε (mu.getD fun _ _ => 1) (fun b c => -(θ (c a) * Em b c)) (computeSource E H β ω d a p sl mu) b c := by
  set μ : FieldT sh := mu.getD fun _ _ => 1 with hμd
  have hI := Complex.I_ne_zero
  have hII : Complex.I ^ 2 = -1 := Complex.I_sq
  obtain ⟨hc1, hc2⟩ := hc
  have hw' : ∀ c : Cell sh, d.h a (c a) = w ∧ d.e a (c a) = w := fun c => ⟨hdh _ (c a).isLt, hde _ (c a).isLt⟩
  -- the curl of the truncated field
  have hcE : ∀ (b : Fin 3) (c : Cell sh), (c a).val + 1 < sh a →
      curlEAt d (fun b c => -(θ (c a) * Em b c)) b c / μ b c =
        Complex.I * ω * (θ (c a) * Hm b c) + 1 / w * (sourceM a p E b c / μ b c) := by
    intro b c hc
    have hneg : (fun b c => -(θ (c a) * Em b c)) = (fun (b : Fin 3) (c : Cell sh) => (fun n => -θ n) (c a) * Em b c) := by
      funext b c; ring
    have hEm := hM.e b c hc
    have hμb := hμ b c
    have hjump : ∀ k : Fin 3, k ≠ a → (-θ ((c a).val + 1) - -θ (c a)) * Em k (nextCell a c) / d.e a (c a) =
        -(1 / w * (E k (nextCell a c) * p)) := by
      intro k hk
      rw [(hw' c).2, hE k _ hk, next_self a c hc]
      have h1 : -θ ((c a).val + 1) - -θ (c a) = -(θ ((c a).val + 1) - θ (c a)) := by ring
      rw [h1, hθ _ hc]
      by_cases hs : (c a).val + 1 = sl.lo a
      · rw [if_pos hs, if_pos hs]; ring
      · rw [if_neg hs, if_neg hs]; ring
    have key : curlEAt d (fun b c => -(θ (c a) * Em b c)) b c = -θ (c a) * curlEAt d Em b c + 1 / w * sourceM a p E b c := by
      rw [hneg]
      clear hEm hμb
      revert b
      refine forall_cyc a ?_ ?_ ?_
      · rw [curlEAt, curlEAt, dF_mul_other d a (fun n => -θ n) (a1_ne a), dF_mul_other d a (fun n => -θ n) (a2_ne a),
          (sourceM_comp a p E c).1]
        ring
      · rw [(curlE_cyc d _ a c).1, (curlE_cyc d _ a c).1, dF_mul_other d a (fun n => -θ n) (a2_ne a),
          dF_mul_self d a (fun n => -θ n) _ c hc, (sourceM_comp a p E c).2.1, hjump _ (a2_ne a)]
        ring
      · rw [(curlE_cyc d _ a c).2, (curlE_cyc d _ a c).2, dF_mul_other d a (fun n => -θ n) (a1_ne a),
          dF_mul_self d a (fun n => -θ n) _ c hc, (sourceM_comp a p E c).2.2, hjump _ (a1_ne a)]
        ring
    rw [key, hEm]
    field_simp
  -- the second curl
  set K := curlHAt d (fun k c => sourceM a p E k c / μ k c) with hKd
  have hJ := computeSource_comp E H β ω d a p sl mu c
  simp only [] at hJ
  rw [← hμd, ← hKd] at hJ
  have hsl : d.h a (sl.lo a) = w := hdh _ hlo
  rw [hsl] at hJ
  have hdB : ∀ (k b : Fin 3), dB d b (fun c => curlEAt d (fun b c => -(θ (c a) * Em b c)) k c / μ k c) c =
      Complex.I * ω * dB d b (fun c => θ (c a) * Hm k c) c + 1 / w * dB d b (fun c => sourceM a p E k c / μ k c) c := by
    intro k b
    rw [← dB_lin]
    have hb : (prevCell b c a).val + 1 < sh a := by
      by_cases h : b = a
      · subst h
        rw [prev_self b c hc1]
        omega
      · rw [prev_other h]; exact hc2
    exact dB_congr d b (hcE k c hc2) (hcE k _ hb)
  have hjumpH : ∀ k : Fin 3, k ≠ a → (θ (c a) - θ ((c a).val - 1)) * Hm k (prevCell a c) / d.h a (c a) =
      1 / w * (Complex.exp (Complex.I * (p : ℂ) * β * w) * H k c * p) := by
    intro k hk
    have h1 := hθ ((c a).val - 1) (by omega)
    rw [Nat.sub_add_cancel hc1] at h1
    rw [h1, (hw' c).1, hH k c hk]
    by_cases hs : (c a).val = sl.lo a
    · rw [if_pos hs, if_pos hs, hph k c hk hc1 hs]; ring
    · rw [if_neg hs, if_neg hs]; ring
  have hHm := fun b => hM.h b c hc1
  have hKb : ∀ x : ℂ, x / (-Complex.I * ω) = Complex.I * x / ω := by
    intro x
    field_simp
    linear_combination -x * hII
  unfold WaveAt
  have e0 : curlHAt d (fun b c => curlEAt d (fun b c => -(θ (c a) * Em b c)) b c / μ b c) a c =
      Complex.I * ω * (θ (c a) * curlHAt d Hm a c) + 1 / w * K a c := by
    rw [curlHAt, hdB, hdB, dB_mul_other d a θ (a1_ne a), dB_mul_other d a θ (a2_ne a), curlHAt, hKd, curlHAt]
    ring
  have e1 : curlHAt d (fun b c => curlEAt d (fun b c => -(θ (c a) * Em b c)) b c / μ b c) (a + 1) c =
      Complex.I * ω * (θ (c a) * curlHAt d Hm (a + 1) c -
        1 / w * (Complex.exp (Complex.I * (p : ℂ) * β * w) * H (a + 2) c * p)) + 1 / w * K (a + 1) c := by
    rw [(curlH_cyc d _ a c).1, hdB, hdB, dB_mul_other d a θ (a2_ne a), dB_mul_self d a θ _ c hc1, hjumpH _ (a2_ne a),
      (curlH_cyc d _ a c).1, hKd, (curlH_cyc d _ a c).1]
    ring
  have e2 : curlHAt d (fun b c => curlEAt d (fun b c => -(θ (c a) * Em b c)) b c / μ b c) (a + 2) c =
      Complex.I * ω * (θ (c a) * curlHAt d Hm (a + 2) c +
        1 / w * (Complex.exp (Complex.I * (p : ℂ) * β * w) * H (a + 1) c * p)) + 1 / w * K (a + 2) c := by
    rw [(curlH_cyc d _ a c).2, hdB, hdB, dB_mul_other d a θ (a1_ne a), dB_mul_self d a θ _ c hc1, hjumpH _ (a1_ne a),
      (curlH_cyc d _ a c).2, hKd, (curlH_cyc d _ a c).2]
    ring
  have hωω : ω * ω⁻¹ = 1 := mul_inv_cancel₀ hω
  revert b
  refine forall_cyc a ?_ ?_ ?_
  · rw [e0, hHm, hJ.1, hKb]
    simp only [div_eq_mul_inv]
    linear_combination (ω ^ 2 * ε a c * θ (c a) * Em a c + ω * ω⁻¹ * w⁻¹ * K a c) * hII - w⁻¹ * K a c * hωω
  · rw [e1, hHm, hJ.2.1, hKb]
    simp only [div_eq_mul_inv]
    linear_combination (ω ^ 2 * ε (a + 1) c * θ (c a) * Em (a + 1) c + ω * ω⁻¹ * w⁻¹ * K (a + 1) c) * hII -
      w⁻¹ * K (a + 1) c * hωω
  · rw [e2, hHm, hJ.2.2, hKb]
    simp only [div_eq_mul_inv]
    linear_combination (ω ^ 2 * ε (a + 2) c * θ (c a) * Em (a + 2) c + ω * ω⁻¹ * w⁻¹ * K (a + 2) c) * hII -
      w⁻¹ * K (a + 2) c * hωω

/-! ### From the cross-section to the grid -/

theorem order_eq : ∀ a : Fin 3, wgOrder a 0 = a + 1 ∧ wgOrder a 1 = a + 2 ∧ wgOrder a 2 = a := by decide
theorem rev_eq : ∀ a : Fin 3, wgRevOrder a (a + 1) = 0 ∧ wgRevOrder a (a + 2) = 1 ∧ wgRevOrder a a = 2 := by decide

/-- C76: the axes are moved to the cross-section and back by permutations that are inverse to each other; the propagation axis
becomes the third axis, and the orientation is kept. -/
theorem order_reverse (a i : Fin 3) : wgRevOrder a (wgOrder a i) = i ∧ wgOrder a (wgRevOrder a i) = i ∧
    wgOrder a 2 = a ∧ wgOrder a (i + 1) = wgOrder a i + 1 := by
  revert a i; decide

/-- The cell is inside the slices. -/
def InSlc (sl : Slc) (c : Cell sh) : Prop := ∀ b, sl.lo b ≤ (c b).val ∧ (c b).val < sl.hi b

theorem readCell_of {f : Arr sh} {idx : Fin 3 → Nat} {c : Cell sh} (h : ∀ b, idx b = (c b).val) : readCell f idx = f c := by
  have hin : ∀ b, idx b < sh b := fun b => by rw [h]; exact (c b).isLt
  rw [readCell, dif_pos hin]
  congr 1
  funext b
  exact Fin.ext (h b)

/-- C76: the cross-section of a field, put back on the grid, is the field inside the slices and zero outside: every component of
the field ends up where it came from. -/
theorem expand_section (a : Fin 3) (sl : Slc) (h1 : sl.hi a = sl.lo a + 1) (f : FieldT sh) (b : Fin 3) (c : Cell sh) :
    (InSlc sl c → expandSec a sl (secOf f a sl) b c = f b c) ∧ (¬ InSlc sl c → expandSec a sl (secOf f a sl) b c = 0) := by
  constructor
  · intro hc
    unfold InSlc at hc
    have e := expandSec.eq_def (sh := sh) a sl (secOf f a sl) b c
    rw [e, if_pos hc, secOf, (order_reverse a b).2.1]
    apply readCell_of
    have o := order_eq a
    rw [o.1, o.2.1]
    refine forall_cyc a ?_ ?_ ?_
    · rw [if_neg (Ne.symm (a1_ne a)), if_neg (Ne.symm (a2_ne a))]
      have := hc a; omega
    · rw [if_pos rfl]
      have := hc (a + 1)
      have e := congrArg (fun b => (c b).val - sl.lo b) o.1
      omega
    · rw [if_neg (Ne.symm (a12_ne a)), if_pos rfl]
      have := hc (a + 2)
      have e := congrArg (fun b => (c b).val - sl.lo b) o.2.1
      omega
  · intro hc
    unfold InSlc at hc
    rw [expandSec, if_neg hc]

/-- C76: and the fields of the cross-section are what the cross-section of the expanded fields shows. -/
theorem section_expand (a : Fin 3) (sl : Slc) (h1 : sl.hi a = sl.lo a + 1) (hin : ∀ b, sl.hi b ≤ sh b) (F : SecField) (k : Fin 3)
    (i j : Nat) (hi : sl.lo (a + 1) + i < sl.hi (a + 1)) (hj : sl.lo (a + 2) + j < sl.hi (a + 2)) :
    secOf (expandSec a sl F : FieldT sh) a sl k i j = F k i j := by
  have o := order_eq a
  have hidx : ∀ b, (if b = wgOrder a 0 then sl.lo b + i else if b = wgOrder a 1 then sl.lo b + j else sl.lo b) < sl.hi b ∧
      sl.lo b ≤ (if b = wgOrder a 0 then sl.lo b + i else if b = wgOrder a 1 then sl.lo b + j else sl.lo b) := by
    rw [o.1, o.2.1]
    refine forall_cyc a ?_ ?_ ?_
    · rw [if_neg (Ne.symm (a1_ne a)), if_neg (Ne.symm (a2_ne a))]; omega
    · rw [if_pos rfl]; omega
    · rw [if_neg (Ne.symm (a12_ne a)), if_pos rfl]; omega
  have hlt : ∀ b, (if b = wgOrder a 0 then sl.lo b + i else if b = wgOrder a 1 then sl.lo b + j else sl.lo b) < sh b :=
    fun b => Nat.lt_of_lt_of_le (hidx b).1 (hin b)
  rw [secOf, readCell, dif_pos hlt, expandSec, if_pos (fun b => ⟨(hidx b).2, (hidx b).1⟩), (order_reverse a k).1]
  have n01 : wgOrder a 1 ≠ wgOrder a 0 := by rw [o.1, o.2.1]; exact (a12_ne a).symm
  congr 1
  · simp only [if_true, Nat.add_sub_cancel_left]
  · simp only [if_neg n01, if_true, Nat.add_sub_cancel_left]

example : ∃ sl : Slc, sl.hi 1 = sl.lo 1 + 1 ∧ (∀ b, sl.hi b ≤ (![4, 5, 6] : Shape) b) ∧ sl.lo (1 + 1) + 1 < sl.hi (1 + 1) ∧
    sl.lo (1 + 2) + 1 < sl.hi (1 + 2) :=
  ⟨⟨![1, 2, 1], ![3, 3, 5]⟩, by decide, by decide, by decide, by decide⟩

/-- The slice is the plane `s` across `a`. -/
def PlaneSlc (sh : Shape) (a : Fin 3) (s : Nat) (sl : Slc) : Prop :=
  sl.lo a = s ∧ sl.hi a = s + 1 ∧ ∀ b, b ≠ a → sl.lo b = 0 ∧ sl.hi b = sh b

theorem expandSec_eq {a : Fin 3} {s : Nat} {sl : Slc} (hs : PlaneSlc sh a s sl) (F : SecField) (b : Fin 3) (c : Cell sh) :
    expandSec a sl F b c = if (c a).val = s then F (wgRevOrder a b) (c (a + 1)) (c (a + 2)) else 0 := by
  obtain ⟨h1, h2, h3⟩ := hs
  have o0 : (c (wgOrder a 0)).val - sl.lo (wgOrder a 0) = (c (a + 1)).val := by
    have := congrArg (fun b => (c b).val - sl.lo b) (order_eq a).1
    refine this.trans ?_
    simp only [(h3 (a + 1) (a1_ne a)).1, Nat.sub_zero]
  have o1 : (c (wgOrder a 1)).val - sl.lo (wgOrder a 1) = (c (a + 2)).val := by
    have := congrArg (fun b => (c b).val - sl.lo b) (order_eq a).2.1
    refine this.trans ?_
    simp only [(h3 (a + 2) (a2_ne a)).1, Nat.sub_zero]
  rw [expandSec, o0, o1]
  congr 1
  apply propext
  constructor
  · intro h
    have := h a
    omega
  · intro h b
    by_cases hb : b = a
    · subst hb; omega
    · rw [(h3 b hb).1, (h3 b hb).2]
      exact ⟨Nat.zero_le _, (c b).isLt⟩

/-- The material does not change along `a`. -/
def Invariant (a : Fin 3) (f : FieldT sh) : Prop := ∀ b (c c' : Cell sh), (∀ k, k ≠ a → c k = c' k) → f b c = f b c'

theorem secOf_eq {a : Fin 3} {s : Nat} {sl : Slc} (hs : PlaneSlc sh a s sl) (hlt : s < sh a) {f : FieldT sh} (hf : Invariant a f)
    (k : Fin 3) (c : Cell sh) : secOf f a sl k (c (a + 1)) (c (a + 2)) = f (wgOrder a k) c := by
  obtain ⟨h1, h2, h3⟩ := hs
  have hidx : ∀ b, (if b = wgOrder a 0 then sl.lo b + (c (a + 1)).val else
      if b = wgOrder a 1 then sl.lo b + (c (a + 2)).val else sl.lo b) = if b = a then s else (c b).val := by
    rw [(order_eq a).1, (order_eq a).2.1]
    refine forall_cyc a ?_ ?_ ?_
    · rw [if_neg (Ne.symm (a1_ne a)), if_neg (Ne.symm (a2_ne a)), if_pos rfl, h1]
    · rw [if_pos rfl, if_neg (a1_ne a), (h3 _ (a1_ne a)).1, Nat.zero_add]
    · rw [if_neg (Ne.symm (a12_ne a)), if_pos rfl, if_neg (a2_ne a), (h3 _ (a2_ne a)).1, Nat.zero_add]
  have hin : ∀ b, (if b = wgOrder a 0 then sl.lo b + (c (a + 1)).val else
      if b = wgOrder a 1 then sl.lo b + (c (a + 2)).val else sl.lo b) < sh b := by
    intro b
    rw [hidx]
    by_cases hb : b = a
    · subst hb; rw [if_pos rfl]; exact hlt
    · rw [if_neg hb]; exact (c b).isLt
  rw [secOf, readCell, dif_pos hin]
  apply hf
  intro b hb
  apply Fin.ext
  simp only [hidx, if_neg hb]

/-- The phase at the position `x` along the guide, in cells. -/
noncomputable def guidePhase (B w : ℂ) (x : ℂ) : ℂ := Complex.exp (-Complex.I * B * w * x)

/-- The mode on the whole grid: the components along the guide sit half a cell further (electric field) or half a cell earlier
(magnetic field) than the others. -/
noncomputable def extE (a : Fin 3) (s : Nat) (B w : ℂ) (E2 : SecField) : FieldT sh := fun b c =>
  E2 (wgRevOrder a b) (c (a + 1)) (c (a + 2)) * guidePhase B w ((c a).val - s + if b = a then 1 / 2 else 0)
noncomputable def extH (a : Fin 3) (s : Nat) (B w : ℂ) (H2 : SecField) : FieldT sh := fun b c =>
  H2 (wgRevOrder a b) (c (a + 1)) (c (a + 2)) * guidePhase B w ((c a).val - s + if b = a then 0 else 1 / 2)

theorem guidePhase_add (B w x y : ℂ) : guidePhase B w (x + y) = guidePhase B w x * guidePhase B w y := by
  rw [guidePhase, guidePhase, guidePhase, ← Complex.exp_add]
  congr 1; ring

theorem guidePhase_step (B B0 w x : ℂ) (hB : 2 * Complex.sin (B * w / 2) = B0 * w) :
    guidePhase B w (x + 1 / 2) - guidePhase B w (x - 1 / 2) = -Complex.I * B0 * w * guidePhase B w x := by
  have h : guidePhase B w (1 / 2) - guidePhase B w (-1 / 2) = -Complex.I * B0 * w := by
    have hs : 2 * Complex.sin (B * w / 2) = (Complex.exp (-(B * w / 2) * Complex.I) - Complex.exp (B * w / 2 * Complex.I)) * Complex.I :=
      Complex.two_sin _
    rw [hB] at hs
    have e1 : guidePhase B w (1 / 2) = Complex.exp (-(B * w / 2) * Complex.I) := by rw [guidePhase]; congr 1; ring
    have e2 : guidePhase B w (-1 / 2) = Complex.exp (B * w / 2 * Complex.I) := by rw [guidePhase]; congr 1; ring
    rw [e1, e2]
    have hII : Complex.I * Complex.I = -1 := Complex.I_mul_I
    linear_combination (Complex.exp (-(B * w / 2) * Complex.I) - Complex.exp (B * w / 2 * Complex.I)) * hII + Complex.I * hs
  rw [guidePhase_add, show x - 1 / 2 = x + -1 / 2 by ring, guidePhase_add, ← mul_sub, h]
  ring

section ext
variable {a : Fin 3} {s : Nat}

theorem next_coord (b k : Fin 3) (c : Cell sh) : (nextCell b c k).val = if k = b then ((c k).val + 1) % sh k else (c k).val := by
  by_cases h : k = b
  · rw [if_pos h, nextCell, if_pos h]
  · rw [if_neg h, nextCell, if_neg h]

theorem prev_coord (b k : Fin 3) (c : Cell sh) :
    (prevCell b c k).val = if k = b then ((c k).val + (sh k - 1)) % sh k else (c k).val := by
  by_cases h : k = b
  · rw [if_pos h, prevCell, if_pos h]
  · rw [if_neg h, prevCell, if_neg h]

/-- A mode of the cross-section, moved along the guide with the wavenumber of the discretised guide, solves Maxwell's equations on
the grid. -/
theorem ext_sourceFree {d : Dxes} {w : ℂ} (hw : w ≠ 0) (hde : ∀ n, n < sh a → d.e a n = w) (hdh : ∀ n, n < sh a → d.h a n = w)
    {sl : Slc} (hs : PlaneSlc sh a s sl) (hlt : s < sh a) {ω B B0 : ℂ} (hB : 2 * Complex.sin (B * w / 2) = B0 * w)
    {ε μ : FieldT sh} (hε : Invariant a ε) (hμ : Invariant a μ) {E2 H2 : SecField}
    (hm : IsMode (n0 := sh (a + 1)) (n1 := sh (a + 2)) (secDx d a sl) ω B0 (fun k i j => secOf ε a sl k i j)
      (fun k i j => secOf μ a sl k i j) (fun k i j => E2 k i j) (fun k i j => H2 k i j)) :
    SourceFree d a ω ε μ (extE a s B w E2) (extH a s B w H2) := by
  obtain ⟨o0, o1, o2⟩ := order_eq a
  obtain ⟨r0, r1, r2⟩ := rev_eq a
  have dx0 : ∀ i, (secDx d a sl).e 0 i = d.e (a + 1) i := fun i => by
    simp only [secDx, if_true, o0, (hs.2.2 _ (a1_ne a)).1, Nat.zero_add]
  have dx1 : ∀ i, (secDx d a sl).e 1 i = d.e (a + 2) i := fun i => by
    simp only [secDx, one_ne_zero, if_false, o1, (hs.2.2 _ (a2_ne a)).1, Nat.zero_add]
  have dy0 : ∀ i, (secDx d a sl).h 0 i = d.h (a + 1) i := fun i => by
    simp only [secDx, if_true, o0, (hs.2.2 _ (a1_ne a)).1, Nat.zero_add]
  have dy1 : ∀ i, (secDx d a sl).h 1 i = d.h (a + 2) i := fun i => by
    simp only [secDx, one_ne_zero, if_false, o1, (hs.2.2 _ (a2_ne a)).1, Nat.zero_add]
  have n12 := a12_ne a
  have n1 := a1_ne a
  have n2 := a2_ne a
  constructor
  · intro b c hc
    have hεe : ∀ k, secOf ε a sl k (c (a + 1)) (c (a + 2)) = ε (wgOrder a k) c := fun k => secOf_eq hs hlt hε k c
    have hμe : ∀ k, secOf μ a sl k (c (a + 1)) (c (a + 2)) = μ (wgOrder a k) c := fun k => secOf_eq hs hlt hμ k c
    have hstep := guidePhase_step B B0 w ((c a).val - s + 1 / 2) hB
    have q1 : ((c a).val - s + 1 / 2 + 1 / 2 : ℂ) = (((c a).val + 1 : ℕ) : ℂ) - s := by push_cast; ring
    have q2 : ((c a).val - s + 1 / 2 - 1 / 2 : ℂ) = (c a).val - s := by ring
    rw [q1, q2] at hstep
    have da : d.e a (c a) = w := hde _ (c a).isLt
    revert b
    refine forall_cyc a ?_ ?_ ?_
    · have h := hm.ez (c (a + 1)) (c (a + 2))
      simp only [dFwd0, dFwd1, dx0, dx1, nextIx, hμe, o2] at h
      simp only [curlEAt, dF, extE, extH, r0, r1, r2, next_coord, if_neg n12, if_neg (Ne.symm n12), if_neg n1, if_neg n2,
        if_neg (Ne.symm n1), if_neg (Ne.symm n2), if_true, add_zero]
      linear_combination guidePhase B w ((c a).val - s) * h
    · have h := hm.ex (c (a + 1)) (c (a + 2))
      simp only [dFwd0, dFwd1, dx0, dx1, nextIx, hμe, o0] at h
      rw [(curlE_cyc d _ a c).1]
      simp only [dF, extE, extH, r0, r1, r2, next_coord, if_neg n12, if_neg (Ne.symm n12), if_neg n1, if_neg n2,
        if_neg (Ne.symm n1), if_neg (Ne.symm n2), if_true, add_zero, Nat.mod_eq_of_lt hc, da]
      rw [← mul_sub, hstep]
      have : E2 1 (c (a + 1)) (c (a + 2)) * (-Complex.I * B0 * w * guidePhase B w ((c a).val - s + 1 / 2)) / w =
          -Complex.I * B0 * E2 1 (c (a + 1)) (c (a + 2)) * guidePhase B w ((c a).val - s + 1 / 2) := by field_simp
      rw [this]
      linear_combination guidePhase B w ((c a).val - s + 1 / 2) * h
    · have h := hm.ey (c (a + 1)) (c (a + 2))
      simp only [dFwd0, dFwd1, dx0, dx1, nextIx, hμe, o1] at h
      rw [(curlE_cyc d _ a c).2]
      simp only [dF, extE, extH, r0, r1, r2, next_coord, if_neg n12, if_neg (Ne.symm n12), if_neg n1, if_neg n2,
        if_neg (Ne.symm n1), if_neg (Ne.symm n2), if_true, add_zero, Nat.mod_eq_of_lt hc, da]
      rw [← mul_sub, hstep]
      have : E2 0 (c (a + 1)) (c (a + 2)) * (-Complex.I * B0 * w * guidePhase B w ((c a).val - s + 1 / 2)) / w =
          -Complex.I * B0 * E2 0 (c (a + 1)) (c (a + 2)) * guidePhase B w ((c a).val - s + 1 / 2) := by field_simp
      rw [this]
      linear_combination guidePhase B w ((c a).val - s + 1 / 2) * h
  · intro b c hc
    have hεe : ∀ k, secOf ε a sl k (c (a + 1)) (c (a + 2)) = ε (wgOrder a k) c := fun k => secOf_eq hs hlt hε k c
    have hstep := guidePhase_step B B0 w ((c a).val - s) hB
    have q2 : ((c a).val - s - 1 / 2 : ℂ) = (((c a).val - 1 : ℕ) : ℂ) - s + 1 / 2 := by
      rw [Nat.cast_sub hc]; push_cast; ring
    rw [q2] at hstep
    have da : d.h a (c a) = w := hdh _ (c a).isLt
    have hmod : ((c a).val + (sh a - 1)) % sh a = (c a).val - 1 := by
      have := prev_self a c hc
      rw [prev_coord, if_pos rfl] at this
      exact this
    revert b
    refine forall_cyc a ?_ ?_ ?_
    · have h := hm.hz (c (a + 1)) (c (a + 2))
      simp only [dBack0, dBack1, dy0, dy1, prevIx, hεe, o2] at h
      simp only [curlHAt, dB, extE, extH, r0, r1, r2, prev_coord, if_neg n12, if_neg (Ne.symm n12), if_neg n1, if_neg n2,
        if_neg (Ne.symm n1), if_neg (Ne.symm n2), if_true, add_zero]
      linear_combination guidePhase B w ((c a).val - s + 1 / 2) * h
    · have h := hm.hx (c (a + 1)) (c (a + 2))
      simp only [dBack0, dBack1, dy0, dy1, prevIx, hεe, o0] at h
      rw [(curlH_cyc d _ a c).1]
      simp only [dB, extE, extH, r0, r1, r2, prev_coord, if_neg n12, if_neg (Ne.symm n12), if_neg n1, if_neg n2,
        if_neg (Ne.symm n1), if_neg (Ne.symm n2), if_true, add_zero, hmod, da]
      rw [← mul_sub (H2 1 _ _), hstep]
      have : H2 1 (c (a + 1)) (c (a + 2)) * (-Complex.I * B0 * w * guidePhase B w ((c a).val - s)) / w =
          -Complex.I * B0 * H2 1 (c (a + 1)) (c (a + 2)) * guidePhase B w ((c a).val - s) := by field_simp
      rw [this]
      linear_combination guidePhase B w ((c a).val - s) * h
    · have h := hm.hy (c (a + 1)) (c (a + 2))
      simp only [dBack0, dBack1, dy0, dy1, prevIx, hεe, o1] at h
      rw [(curlH_cyc d _ a c).2]
      simp only [dB, extE, extH, r0, r1, r2, prev_coord, if_neg n12, if_neg (Ne.symm n12), if_neg n1, if_neg n2,
        if_neg (Ne.symm n1), if_neg (Ne.symm n2), if_true, add_zero, hmod, da]
      rw [← mul_sub (H2 0 _ _), hstep]
      have : H2 0 (c (a + 1)) (c (a + 2)) * (-Complex.I * B0 * w * guidePhase B w ((c a).val - s)) / w =
          -Complex.I * B0 * H2 0 (c (a + 1)) (c (a + 2)) * guidePhase B w ((c a).val - s) := by field_simp
      rw [this]
      linear_combination guidePhase B w ((c a).val - s) * h

end ext

end Verif.Fdfd
