import Verif.Fdfd.WaveguideSourceProps
/-
Properties C74 (the wavenumber of the discretised guide) and C75 (the one-way source).
-/
set_option linter.unusedSimpArgs false
namespace Verif.Fdfd
variable {sh : Shape}

/-! ### Lemmas -/

theorem ext_next {a : Fin 3} (s : Nat) (B w : ℂ) (E2 : SecField) (b : Fin 3) (c : Cell sh) (hc : (c a).val + 1 < sh a) :
    extE a s B w E2 b (nextCell a c) = Complex.exp (-Complex.I * B * w) * extE a s B w E2 b c ∧
    extH a s B w E2 b (nextCell a c) = Complex.exp (-Complex.I * B * w) * extH a s B w E2 b c := by
  have h1 : guidePhase B w 1 = Complex.exp (-Complex.I * B * w) := by rw [guidePhase]; congr 1; ring
  have hx : ∀ x : ℂ, (((c a).val + 1 : ℕ) : ℂ) - s + x = (c a).val - s + x + 1 := by intro x; push_cast; ring
  constructor
  · simp only [extE, next_coord, if_neg (a1_ne a), if_neg (a2_ne a), if_true, Nat.mod_eq_of_lt hc]
    rw [hx, guidePhase_add, h1]; ring
  · simp only [extH, next_coord, if_neg (a1_ne a), if_neg (a2_ne a), if_true, Nat.mod_eq_of_lt hc]
    rw [hx, guidePhase_add, h1]; ring

theorem sourceFree_scale {d : Dxes} {a : Fin 3} {ω : ℂ} {ε μ E H : FieldT sh} (h : SourceFree d a ω ε μ E H) (κ : ℂ) :
    SourceFree d a ω ε μ (fun b c => κ * E b c) (fun b c => κ * H b c) := by
  constructor
  · intro b c hc
    have := h.e b c hc
    simp only [curlEAt, dF] at this ⊢
    rw [← mul_sub, ← mul_sub, mul_div_assoc, mul_div_assoc, ← mul_sub, this]; ring
  · intro b c hc
    have := h.h b c hc
    simp only [curlHAt, dB] at this ⊢
    rw [← mul_sub, ← mul_sub, mul_div_assoc, mul_div_assoc, ← mul_sub, this]; ring

theorem waveAt_scale {d : Dxes} {ω : ℂ} {ε μ E J : FieldT sh} {b : Fin 3} {c : Cell sh} (h : WaveAt d ω ε μ E J b c) (κ : ℂ) :
    WaveAt d ω ε μ (fun b c => E b c * κ) (fun b c => J b c * κ) b c := by
  have hE : ∀ b c, curlEAt d (fun b c => E b c * κ) b c / μ b c = curlEAt d E b c / μ b c * κ := by
    intro b c; simp only [curlEAt, dF]; ring
  unfold WaveAt at h ⊢
  have hH : curlHAt d (fun b c => curlEAt d E b c / μ b c * κ) b c = curlHAt d (fun b c => curlEAt d E b c / μ b c) b c * κ := by
    simp only [curlHAt, dB]; ring
  simp only [hE]
  rw [hH]
  linear_combination κ * h

/-- The conjugated mode runs in the other direction. -/
theorem mode_conj {n0 n1 : Nat} {d : Dxes2} {ω β : ℂ} {ε μ E H : Fin 3 → Arr2 n0 n1}
    (hd0 : ∀ i : Fin n0, star (d.e 0 i) = d.e 0 i ∧ star (d.h 0 i) = d.h 0 i)
    (hd1 : ∀ j : Fin n1, star (d.e 1 j) = d.e 1 j ∧ star (d.h 1 j) = d.h 1 j)
    (hω : star ω = ω) (hβ : star β = β) (hε : ∀ k i j, star (ε k i j) = ε k i j) (hμ : ∀ k i j, star (μ k i j) = μ k i j)
    (h : IsMode d ω β ε μ E H) : IsMode d ω (-β) ε μ (fun k i j => star (E k i j)) (fun k i j => -star (H k i j)) := by
  have hI : star Complex.I = -Complex.I := Complex.conj_I
  constructor
  · intro i j
    have := congrArg star (h.ex i j)
    simp only [dFwd0, dFwd1, star_sub, star_div₀, star_mul', star_neg, hI, hω, hβ, hμ, (hd0 i).1, (hd1 j).1] at this ⊢
    linear_combination this
  · intro i j
    have := congrArg star (h.ey i j)
    simp only [dFwd0, dFwd1, star_sub, star_div₀, star_mul', star_neg, hI, hω, hβ, hμ, (hd0 i).1, (hd1 j).1] at this ⊢
    linear_combination this
  · intro i j
    have := congrArg star (h.ez i j)
    simp only [dFwd0, dFwd1, star_sub, star_div₀, star_mul', star_neg, hI, hω, hβ, hμ, (hd0 i).1, (hd1 j).1] at this ⊢
    linear_combination this
  · intro i j
    have := congrArg star (h.hx i j)
    simp only [dBack0, dBack1, star_sub, star_div₀, star_mul', star_neg, hI, hω, hβ, hε, (hd0 i).2, (hd1 j).2] at this ⊢
    linear_combination -this
  · intro i j
    have := congrArg star (h.hy i j)
    simp only [dBack0, dBack1, star_sub, star_div₀, star_mul', star_neg, hI, hω, hβ, hε, (hd0 i).2, (hd1 j).2] at this ⊢
    linear_combination -this
  · intro i j
    have := congrArg star (h.hz i j)
    simp only [dBack0, dBack1, star_sub, star_div₀, star_mul', star_neg, hI, hω, hβ, hε, (hd0 i).2, (hd1 j).2] at this ⊢
    linear_combination -this

theorem secOf_real {f : FieldT sh} (hf : ∀ b c, star (f b c) = f b c) (a : Fin 3) (sl : Slc) (k : Fin 3) (i j : Nat) :
    star (secOf f a sl k i j) = secOf f a sl k i j := by
  unfold secOf readCell
  split
  · exact hf _ _
  · exact star_zero _

/-! ### C75 -/

/-- C75: the current of a waveguide source that fills the cross-section of an invariant guide with the mode of the cross-section
and with the wavenumber of the discretised guide radiates in one direction only. The field that vanishes behind the source plane
and ahead of it is a field of the guide, with the mode's electric field across the guide in the source plane, up to the factor
`-sqrt(power) / phase`, and which is multiplied by `exp(-i p β w)` from plane to plane, solves the wave equation with that current,
up to the planes in which the differences along the guide wrap around. What is missing: the wavenumber that the code uses is not
this one (`waveguide_source_one_way_false`), the spacing along the guide is uniform, and a source smaller than the cross-section
radiates from its rim. -/
theorem waveguide_source_one_way_partial (d : Dxes) (a : Fin 3) (p : Int) (hp : p = 1 ∨ p = -1) (w : ℂ) (hw : w ≠ 0)
    (hde : ∀ n, n < sh a → d.e a n = w) (hdh : ∀ n, n < sh a → d.h a n = w) (sl : Slc) (s : Nat) (hs : PlaneSlc sh a s sl)
    (hlt : s < sh a) (ω β0 β : ℂ) (hω : ω ≠ 0) (hβ : 2 * Complex.sin (β * w / 2) = β0 * w) (ε : FieldT sh)
    (mu : Option (FieldT sh)) (hμ0 : ∀ b c, (mu.getD fun _ _ => 1) b c ≠ 0) (hε : Invariant a ε)
    (hμ : Invariant a (mu.getD fun _ _ => 1)) (E2 H2 : SecField)
    (hm : IsMode (n0 := sh (a + 1)) (n1 := sh (a + 2)) (secDx d a sl) ω β0 (fun k i j => secOf ε a sl k i j)
      (fun k i j => secOf (mu.getD fun _ _ => 1) a sl k i j) (fun k i j => E2 k i j) (fun k i j => H2 k i j))
    (hreal : p = -1 → star ω = ω ∧ star β0 = β0 ∧ (∀ b n, star (d.e b n) = d.e b n ∧ star (d.h b n) = d.h b n) ∧
      (∀ b c, star (ε b c) = ε b c) ∧ ∀ b c, star ((mu.getD fun _ _ => 1) b c) = (mu.getD fun _ _ => 1) b c)
    (power : ℝ) (phase : ℂ) :
    ∃ Em Hm : FieldT sh, SourceFree d a ω ε (mu.getD fun _ _ => 1) Em Hm ∧
      (∀ b c, (c a).val + 1 < sh a → Em b (nextCell a c) = Complex.exp (-Complex.I * p * β * w) * Em b c ∧
        Hm b (nextCell a c) = Complex.exp (-Complex.I * p * β * w) * Hm b c) ∧
      (∀ c : Cell sh, (c a).val = s →
        Em (a + 1) c = -(Real.sqrt power / phase) * (if p < 0 then star (E2 0 (c (a + 1)) (c (a + 2))) else
          E2 0 (c (a + 1)) (c (a + 2))) ∧
        Em (a + 2) c = -(Real.sqrt power / phase) * (if p < 0 then star (E2 1 (c (a + 1)) (c (a + 2))) else
          E2 1 (c (a + 1)) (c (a + 2)))) ∧
      ∀ b c, InnerCell a c → WaveAt d ω ε (mu.getD fun _ _ => 1) (fun b c => if Behind p s (c a) then 0 else Em b c)
        (buildSource ω d mu a p sl power phase β E2 H2) b c := by
  set μ : FieldT sh := mu.getD fun _ _ => 1 with hμd
  set E2' := adjustE p E2 with hE2'
  set H2' : SecField := if p < 0 then fun k i j => -star (H2 k i j) else H2 with hH2'
  have hB : 2 * Complex.sin ((p : ℂ) * β * w / 2) = (p : ℂ) * β0 * w := by
    rcases hp with rfl | rfl
    · push_cast; rw [one_mul, one_mul]; exact hβ
    · push_cast
      rw [show (-1 * β * w / 2 : ℂ) = -(β * w / 2) by ring, Complex.sin_neg]
      linear_combination -hβ
  have hm' : IsMode (n0 := sh (a + 1)) (n1 := sh (a + 2)) (secDx d a sl) ω (p * β0) (fun k i j => secOf ε a sl k i j)
      (fun k i j => secOf μ a sl k i j) (fun k i j => E2' k i j) (fun k i j => H2' k i j) := by
    rcases hp with rfl | rfl
    · have e1 : E2' = E2 := by rw [hE2', adjustE, if_neg (by decide)]
      have e2 : H2' = H2 := by rw [hH2', if_neg (by decide)]
      rw [e1, e2]; push_cast; rw [one_mul]; exact hm
    · obtain ⟨r1, r2, r3, r4, r5⟩ := hreal rfl
      have e1 : E2' = fun k i j => star (E2 k i j) := by rw [hE2', adjustE, if_pos (by decide)]
      have e2 : H2' = fun k i j => -star (H2 k i j) := by rw [hH2', if_pos (by decide)]
      rw [e1, e2, show (((-1 : ℤ) : ℂ) * β0) = -β0 by push_cast; ring]
      refine mode_conj ?_ ?_ r1 r2 (fun k i j => secOf_real r4 a sl k i j) (fun k i j => secOf_real r5 a sl k i j) hm
      · intro i
        simp only [secDx, if_true]
        exact r3 _ _
      · intro i
        simp only [secDx, one_ne_zero, if_false]
        exact r3 _ _
  have hSF := ext_sourceFree (sh := sh) hw hde hdh hs hlt hB hε hμ hm'
  have hSF1 := sourceFree_scale hSF (1 / phase)
  set θ : Nat → ℂ := fun n => if Behind p s n then 0 else 1 with hθd
  have hθ : ∀ n, n + 1 < sh a → θ (n + 1) - θ n = if n + 1 = sl.lo a then (p : ℂ) else 0 := by
    intro n _
    rw [hs.1]
    simp only [hθd, Behind]
    rcases hp with rfl | rfl
    · simp only [show ¬ ((1 : ℤ) < 0) by decide, if_false]
      by_cases h : n + 1 = s
      · rw [if_neg (by omega), if_pos (by omega), if_pos h]; norm_num
      · by_cases h' : n + 1 < s
        · rw [if_pos h', if_pos (by omega), if_neg h]; norm_num
        · rw [if_neg h', if_neg (by omega), if_neg h]; norm_num
    · simp only [show ((-1 : ℤ) < 0) by decide, if_true]
      by_cases h : n + 1 = s
      · rw [if_pos (by omega), if_neg (by omega), if_pos h]; norm_num
      · by_cases h' : s ≤ n
        · rw [if_pos h', if_pos (by omega), if_neg h]; norm_num
        · rw [if_neg h', if_neg (by omega), if_neg h]; norm_num
  have hg0 : guidePhase (p * β) w 0 = 1 := by rw [guidePhase, mul_zero, Complex.exp_zero]
  have hgh : guidePhase (p * β) w (1 / 2) = Complex.exp (-(p : ℂ) * Complex.I * 0.5 * β * w) := by
    rw [guidePhase]; congr 1; ring
  have hcore := one_way_core d a ω β w hω ε mu hμ0 p sl _ _ (fun k c => expandSec a sl E2' k c / phase)
    (fun k c => expandSec a sl (adjustH d a p sl β H2) k c / phase) hSF1 θ hθ hdh hde (by rw [hs.1]; exact hlt)
    (by
      intro b c hb
      rw [expandSec_eq hs, hs.1]
      by_cases h : (c a).val = s
      · rw [if_pos h, if_pos h, extE, if_neg hb, add_zero, h, sub_self, hg0]; ring
      · rw [if_neg h, if_neg h, zero_div])
    (by
      intro b c hb
      rw [expandSec_eq hs, hs.1]
      by_cases h : (c a).val = s
      · rw [if_pos h, if_pos h, extH, if_neg hb, h, sub_self, zero_add, hgh]
        have hd1 : d.e (wgOrder a 2) (sl.lo (wgOrder a 2)) = w := by rw [(order_eq a).2.2, hs.1]; exact hde s hlt
        have hd2 : d.h (wgOrder a 2) (sl.lo (wgOrder a 2)) = w := by rw [(order_eq a).2.2, hs.1]; exact hdh s hlt
        simp only [adjustH, hd1, hd2]
        rw [show (0.5 * (w + w) : ℂ) = w by ring]
        ring
      · rw [if_neg h, if_neg h, zero_div])
    (by
      intro b c hb h1 h2
      have hn : nextCell a (prevCell a c) = c := by
        funext k
        by_cases hk : k = a
        · subst hk
          apply Fin.ext
          rw [next_coord, if_pos rfl, prev_self k c h1]
          rw [show (c k).val - 1 + 1 = (c k).val by omega, Nat.mod_eq_of_lt (c k).isLt]
        · apply Fin.ext
          rw [next_coord, if_neg hk, prev_coord, if_neg hk]
      have := (ext_next (a := a) s (p * β) w H2' b (prevCell a c) (by rw [prev_self a c h1]; have := (c a).isLt; omega)).2
      rw [hn] at this
      rw [this, ← mul_assoc, mul_comm (Complex.exp _) (1 / phase), mul_assoc, ← mul_assoc (Complex.exp _), ← Complex.exp_add]
      rw [show Complex.I * (p : ℂ) * β * w + -Complex.I * ((p : ℂ) * β) * w = 0 by ring, Complex.exp_zero, one_mul])
  have hSF2 := sourceFree_scale hSF (-(Real.sqrt power / phase))
  refine ⟨_, _, hSF2, ?_, ?_, ?_⟩
  · intro b c hc
    obtain ⟨h1, -⟩ := ext_next (a := a) s (p * β) w E2' b c hc
    obtain ⟨-, h2⟩ := ext_next (a := a) s (p * β) w H2' b c hc
    simp only [h1, h2]
    rw [show -Complex.I * ((p : ℂ) * β) * w = -Complex.I * p * β * w by ring]
    constructor <;> ring
  · intro c hc
    have hE : ∀ k i j, E2' k i j = if p < 0 then star (E2 k i j) else E2 k i j := by
      intro k i j
      rw [hE2', adjustE]
      split <;> rfl
    simp only [extE, if_neg (a1_ne a), if_neg (a2_ne a), add_zero, hc, sub_self, hg0, mul_one, (rev_eq a).1, (rev_eq a).2.1, hE]
    exact ⟨trivial, trivial⟩
  · intro b c hc
    have := waveAt_scale (hcore b c hc) ((Real.sqrt power : ℝ) : ℂ)
    refine Eq.mp ?_ this
    congr 1
    funext b c
    simp only [hθd]
    split
    · ring
    · ring

/-! A guide of five planes, with one cell across, and the plane wave in it. -/

def sh5 : Shape := ![1, 1, 5]
def pl (n : Fin 5) : Cell sh5 := fun b => match b with
  | 0 => (0 : Fin 1)
  | 1 => (0 : Fin 1)
  | 2 => n
noncomputable def dx1 : Dxes := ⟨fun _ _ => 1, fun _ _ => 1⟩
def sl5 : Slc := ⟨![0, 0, 2], ![1, 1, 3]⟩
def planeE : SecField := fun k _ _ => if k = 0 then 1 else 0
def planeH : SecField := fun k _ _ => if k = 1 then 1 else 0

theorem sl5_plane : PlaneSlc sh5 2 2 sl5 := by
  refine ⟨rfl, rfl, ?_⟩
  intro b hb
  fin_cases b
  · exact ⟨rfl, rfl⟩
  · exact ⟨rfl, rfl⟩
  · exact absurd rfl hb

theorem const_invariant (a : Fin 3) : Invariant a (fun _ _ => 1 : FieldT sh) := fun _ _ _ _ => rfl

theorem secOf_one (k : Fin 3) (i : Fin (sh5 (2 + 1))) (j : Fin (sh5 (2 + 2))) :
    secOf (fun _ _ => 1 : FieldT sh5) 2 sl5 k i j = 1 := by
  have := secOf_eq sl5_plane (by decide) (const_invariant 2) k (fun b => match b with
    | 0 => i
    | 1 => j
    | 2 => (0 : Fin 5) : Cell sh5)
  exact this

theorem plane_mode : IsMode (n0 := sh5 (2 + 1)) (n1 := sh5 (2 + 2)) (secDx dx1 2 sl5) 1 1
    (fun k i j => secOf (fun _ _ => 1 : FieldT sh5) 2 sl5 k i j)
    (fun k i j => secOf (((none : Option (FieldT sh5)).getD fun _ _ => 1)) 2 sl5 k i j) (fun k i j => planeE k i j)
    (fun k i j => planeH k i j) := by
  have e : ((none : Option (FieldT sh5)).getD fun _ _ => 1) = fun _ _ => 1 := rfl
  simp only [e, secOf_one]
  constructor <;> intro i j <;> simp [dFwd0, dFwd1, dBack0, dBack1, planeE, planeH]

/-- The hypotheses of `waveguide_source_one_way_partial` are met: the plane wave with `ω = β0 = 1`, in both directions. The
wavenumber on the grid is `π / 3`. -/
example (p : Int) (hp : p = 1 ∨ p = -1) : ∃ Em Hm : FieldT sh5,
    SourceFree dx1 2 1 (fun _ _ => 1) (fun _ _ => 1) Em Hm ∧ (∀ c : Cell sh5, (c 2).val = 2 → Em 0 c = -1) ∧
      ∀ b c, InnerCell 2 c → WaveAt dx1 1 (fun _ _ => 1) (fun _ _ => 1) (fun b c => if Behind p 2 (c 2) then 0 else Em b c)
        (buildSource 1 dx1 none 2 p sl5 1 1 (Real.pi / 3 : ℝ) planeE planeH) b c := by
  obtain ⟨Em, Hm, h1, -, h3, h4⟩ := waveguide_source_one_way_partial (sh := sh5) dx1 2 p hp 1 one_ne_zero (fun _ _ => rfl)
    (fun _ _ => rfl) sl5 2 sl5_plane (by decide) 1 1 (Real.pi / 3 : ℝ) one_ne_zero (by
      rw [mul_one, mul_one, show ((Real.pi / 3 : ℝ) : ℂ) / 2 = ((Real.pi / 6 : ℝ) : ℂ) by push_cast; ring, ← Complex.ofReal_sin,
        Real.sin_pi_div_six]
      norm_num) (fun _ _ => 1) none (fun _ _ => one_ne_zero) (const_invariant 2) (const_invariant 2) planeE planeH plane_mode
    (fun _ => ⟨star_one _, star_one _, fun _ _ => ⟨star_one _, star_one _⟩, fun _ _ => star_one _, fun _ _ => star_one _⟩)
    1 1
  refine ⟨Em, Hm, h1, ?_, h4⟩
  intro c hc
  refine (h3 c hc).1.trans ?_
  simp [planeE]

/-- C75 fails with the wavenumber that the code uses by default: the field of the source of the plane wave `ω = β0 = 1` on the unit
grid is not a single travelling wave ahead of the plane and nothing behind it. -/
theorem waveguide_source_one_way_false : ¬ ∀ (sh : Shape) (d : Dxes) (a : Fin 3) (sl : Slc) (s : Nat), PlaneSlc sh a s sl →
    s < sh a → (∀ b n, d.e b n = 1 ∧ d.h b n = 1) → ∀ (ω β0 : ℝ), 0 < ω → 0 < β0 → ∀ ε : FieldT sh, Invariant a ε →
    (∀ b c, star (ε b c) = ε b c) → ∀ E2 H2 : SecField,
    IsMode (n0 := sh (a + 1)) (n1 := sh (a + 2)) (secDx d a sl) ω β0 (fun k i j => secOf ε a sl k i j)
      (fun k i j => secOf (fun _ _ => 1 : FieldT sh) a sl k i j) (fun k i j => E2 k i j) (fun k i j => H2 k i j) →
    ∃ (Em : FieldT sh) (q : ℂ), (∀ b c, (c a).val + 1 < sh a → Em b (nextCell a c) = q * Em b c) ∧
      ∀ b c, InnerCell a c → WaveAt d ω ε (fun _ _ => 1) (fun b c => if Behind 1 s (c a) then 0 else Em b c)
        (buildSource ω d none a 1 sl 1 1 (correctWavenumber β0) E2 H2) b c := by
  intro hall
  obtain ⟨Em, q, hq, hW⟩ := hall sh5 dx1 2 sl5 2 sl5_plane (by decide) (fun _ _ => ⟨rfl, rfl⟩) 1 1 one_pos one_pos (fun _ _ => 1)
    (const_invariant 2) (fun _ _ => star_one _) planeE planeH (by push_cast; exact plane_mode)
  set t := Real.sin (1 / 2) with ht
  have hcw : correctWavenumber ((1 : ℝ) : ℂ) = ((2 * t : ℝ) : ℂ) := by
    rw [correctWavenumber, Complex.ofReal_re, Complex.ofReal_im, ← ht]; congr 1; ring
  have hn0 : ∀ c : Cell sh5, nextCell 0 c = c := fun c => by
    funext b; fin_cases b
    · exact Subsingleton.elim (α := Fin 1) _ _
    · rfl
    · rfl
  have hn2 : nextCell 2 (pl 0) = pl 1 ∧ nextCell 2 (pl 1) = pl 2 ∧ nextCell 2 (pl 2) = pl 3 ∧ nextCell 2 (pl 3) = pl 4 := by
    refine ⟨?_, ?_, ?_, ?_⟩ <;> (funext b; fin_cases b <;> rfl)
  have hp1 : ∀ c : Cell sh5, prevCell 1 c = c := fun c => by
    funext b; fin_cases b
    · rfl
    · exact Subsingleton.elim (α := Fin 1) _ _
    · rfl
  have hp2 : prevCell 2 (pl 1) = pl 0 ∧ prevCell 2 (pl 2) = pl 1 ∧ prevCell 2 (pl 3) = pl 2 := by
    refine ⟨?_, ?_, ?_⟩ <;> (funext b; fin_cases b <;> rfl)
  -- the wave equation for the first component
  have hcH : ∀ (H : FieldT sh5) (c : Cell sh5), curlHAt dx1 H 0 c = -(H 1 c - H 1 (prevCell 2 c)) := by
    intro H c
    have : curlHAt dx1 H 0 c = (H 2 c - H 2 (prevCell 1 c)) / 1 - (H 1 c - H 1 (prevCell 2 c)) / 1 := rfl
    rw [this, hp1]; ring
  have hcE : ∀ (E : FieldT sh5) (c : Cell sh5), curlEAt dx1 E 1 c = E 0 (nextCell 2 c) - E 0 c := by
    intro E c
    have : curlEAt dx1 E 1 c = (E 0 (nextCell 2 c) - E 0 c) / 1 - (E 2 (nextCell 0 c) - E 2 c) / 1 := rfl
    rw [this, hn0]; ring
  have hwave : ∀ (E J : FieldT sh5) (c : Cell sh5), WaveAt dx1 ((1 : ℝ) : ℂ) (fun _ _ => 1) (fun _ _ => 1) E J 0 c →
      -((E 0 (nextCell 2 c) - E 0 c) - (E 0 (nextCell 2 (prevCell 2 c)) - E 0 (prevCell 2 c))) - E 0 c = -Complex.I * J 0 c := by
    intro E J c h
    unfold WaveAt at h
    rw [hcH] at h
    simp only [hcE] at h
    push_cast at h
    linear_combination h
  -- the current
  have hexE : ∀ c : Cell sh5, expandSec 2 sl5 (adjustE 1 planeE) 0 c = if (c 2).val = 2 then 1 else 0 := by
    intro c
    rw [expandSec_eq sl5_plane]; rfl
  have hexE1 : ∀ c : Cell sh5, expandSec 2 sl5 (adjustE 1 planeE) 1 c = 0 := by
    intro c
    rw [expandSec_eq sl5_plane]
    exact ite_self _
  have hexH : ∀ c : Cell sh5, expandSec 2 sl5 (adjustH dx1 2 1 sl5 (correctWavenumber ((1 : ℝ) : ℂ)) planeH) 1 c =
      if (c 2).val = 2 then Complex.exp (-(Complex.I * t)) else 0 := by
    intro c
    rw [expandSec_eq sl5_plane, hcw]
    congr 1
    have : adjustH dx1 2 1 sl5 ((2 * t : ℝ) : ℂ) planeH 1 (c (2 + 1)) (c (2 + 2)) =
        1 * Complex.exp (-((1 : ℤ) : ℂ) * Complex.I * 0.5 * ((2 * t : ℝ) : ℂ) * (0.5 * (1 + 1))) := rfl
    refine Eq.trans this ?_
    rw [one_mul]; congr 1; push_cast; ring
  have hJ : ∀ c : Cell sh5, buildSource ((1 : ℝ) : ℂ) dx1 none 2 1 sl5 1 1 (correctWavenumber ((1 : ℝ) : ℂ)) planeE planeH 0 c =
      (if (c 2).val = 2 then Complex.exp (Complex.I * t) else 0) +
        Complex.I * ((if (nextCell 2 c 2).val = 2 then 1 else 0) - (if (nextCell 2 (prevCell 2 c) 2).val = 2 then 1 else 0)) := by
    intro c
    have h := (computeSource_comp (fun k c => expandSec 2 sl5 (adjustE 1 planeE) k c / (1 : ℂ))
      (fun k c => expandSec 2 sl5 (adjustH dx1 2 1 sl5 (correctWavenumber ((1 : ℝ) : ℂ)) planeH) k c / (1 : ℂ))
      (correctWavenumber ((1 : ℝ) : ℂ)) ((1 : ℝ) : ℂ) dx1 2 1 sl5 none c).2.1
    unfold buildSource
    rw [Real.sqrt_one]
    refine (congrArg (· * ((1 : ℝ) : ℂ)) h).trans ?_
    have hK : ∀ c : Cell sh5, sourceM 2 1 (fun k c => expandSec 2 sl5 (adjustE 1 planeE) k c / (1 : ℂ)) 1 c =
        -(if (nextCell 2 c 2).val = 2 then 1 else 0) := by
      intro c
      have := (sourceM_comp 2 1 (fun k c => expandSec 2 sl5 (adjustE 1 planeE) k c / (1 : ℂ)) c).2.2
      refine Eq.trans this ?_
      have e := hexE (nextCell 2 c)
      rw [show ((2 : Fin 3) + 1) = 0 from rfl, e]
      push_cast; ring
    have hK0 : curlHAt dx1 (fun k c => sourceM 2 1 (fun k c => expandSec 2 sl5 (adjustE 1 planeE) k c / (1 : ℂ)) k c /
        ((none : Option (FieldT sh5)).getD fun _ _ => 1) k c) 0 c =
        (if (nextCell 2 c 2).val = 2 then 1 else 0) - (if (nextCell 2 (prevCell 2 c) 2).val = 2 then 1 else 0) := by
      rw [hcH]
      simp only [Option.getD_none]
      rw [hK, hK]
      ring
    rw [show ((2 : Fin 3) + 1) = 0 from rfl, show ((2 : Fin 3) + 2) = 1 from rfl, hK0, hexH, hcw]
    have hd : dx1.h 2 (sl5.lo 2) = 1 := rfl
    rw [hd]
    have hI : (1 : ℂ) / (-Complex.I * ((1 : ℝ) : ℂ)) = Complex.I := by
      rw [Complex.ofReal_one, mul_one, one_div, inv_neg, Complex.inv_I, neg_neg]
    have hee : Complex.exp (Complex.I * ((1 : ℤ) : ℂ) * ((2 * t : ℝ) : ℂ) * 1) * Complex.exp (-(Complex.I * t)) =
        Complex.exp (Complex.I * t) := by
      rw [← Complex.exp_add]; congr 1; push_cast; ring
    have hX : ∀ X : ℂ, X / (-Complex.I * ((1 : ℝ) : ℂ)) = Complex.I * X := by
      intro X; rw [div_eq_mul_one_div, hI, mul_comm]
    rw [hX]
    by_cases hc : (c 2).val = 2
    · rw [if_pos hc, if_pos hc, ← hee]; push_cast; ring
    · rw [if_neg hc, if_neg hc]; push_cast; ring
  have hin : ∀ n : Fin 5, 1 ≤ n.val → n.val + 1 < 5 → InnerCell 2 (pl n) := fun n h1 h2 => ⟨h1, h2⟩
  have w1 := hwave _ _ _ (hW 0 (pl 1) (hin 1 (by decide) (by decide)))
  have w2 := hwave _ _ _ (hW 0 (pl 2) (hin 2 (by decide) (by decide)))
  have w3 := hwave _ _ _ (hW 0 (pl 3) (hin 3 (by decide) (by decide)))
  have q2 := hq 0 (pl 2) (by decide)
  have q3 := hq 0 (pl 3) (by decide)
  have bh : ∀ n : Fin 5, Behind 1 2 (pl n 2) ↔ n.val < 2 := fun n => by
    unfold Behind; rw [if_neg (by decide)]; rfl
  have vl : ∀ n : Fin 5, (pl n 2).val = n.val := fun _ => rfl
  simp only [hJ, hn2.1, hn2.2.1, hn2.2.2.1, hn2.2.2.2, hp2.1, hp2.2.1, hp2.2.2, bh, vl] at w1 w2 w3 q2 q3
  norm_num at w1 w2 w3
  rw [if_pos (show Behind 1 2 0 by decide), if_pos (show Behind 1 2 1 by decide), if_neg (show ¬ Behind 1 2 2 by decide)] at w1
  rw [if_pos (show Behind 1 2 1 by decide), if_neg (show ¬ Behind 1 2 2 by decide), if_neg (show ¬ Behind 1 2 3 by decide)] at w2
  rw [if_neg (show ¬ Behind 1 2 2 by decide), if_neg (show ¬ Behind 1 2 3 by decide), if_neg (show ¬ Behind 1 2 4 by decide)] at w3
  have e2 : Em 0 (pl 2) = -1 := by linear_combination -w1
  have hII : Complex.I * Complex.I = -1 := Complex.I_mul_I
  rw [e2] at q2 w2 w3
  have hqz : q = -(Complex.I * Complex.exp (Complex.I * t)) := by linear_combination q2 + w2 + hII
  have hqq : q * q - q + 1 = 0 := by
    rw [q2] at q3 w3
    rw [q3] at w3
    linear_combination w3
  have hz : Complex.exp (Complex.I * t) = Real.cos t + Real.sin t * Complex.I := by
    rw [mul_comm, Complex.exp_mul_I, ← Complex.ofReal_cos, ← Complex.ofReal_sin]
  have hq' : q = ((Real.sin t : ℝ) : ℂ) - ((Real.cos t : ℝ) : ℂ) * Complex.I := by
    rw [hqz, hz]; linear_combination -(Real.sin t : ℂ) * hII
  have hre := congrArg Complex.re hqq
  rw [hq'] at hre
  simp only [Complex.add_re, Complex.sub_re, Complex.mul_re, Complex.ofReal_re, Complex.ofReal_im, Complex.I_re, Complex.I_im,
    Complex.sub_im, Complex.mul_im, Complex.one_re, Complex.zero_re] at hre
  have hsc := Real.sin_sq_add_cos_sq t
  have hh : (0 : ℝ) < 1 / 2 := by norm_num
  have ht1 : t < 1 / 2 := Real.sin_lt hh
  have ht0 : 0 < t := Real.sin_pos_of_pos_of_lt_pi hh (by linarith [Real.two_le_pi])
  have hs1 : Real.sin t < t := Real.sin_lt ht0
  have hs0 : 0 < Real.sin t := Real.sin_pos_of_pos_of_lt_pi ht0 (by linarith [Real.two_le_pi])
  nlinarith

/-! ### C74 -/

/-- C74: a mode of the cross-section with the wavenumber `β0`, in a guide with the spacing `w`, travels along the discretised guide
with the wavenumber `β` for which `2 sin(β w / 2) = β0 w`: there are fields that solve Maxwell's equations on the grid, that are
multiplied by `exp(-i β w)` from plane to plane and whose electric field across the guide is that of the mode in the plane `s`. -/
theorem discrete_wavenumber (d : Dxes) (a : Fin 3) (w : ℂ) (hw : w ≠ 0)
    (hde : ∀ n, n < sh a → d.e a n = w) (hdh : ∀ n, n < sh a → d.h a n = w) (sl : Slc) (s : Nat) (hs : PlaneSlc sh a s sl)
    (hlt : s < sh a) (ω β0 β : ℂ) (hβ : 2 * Complex.sin (β * w / 2) = β0 * w) (ε μ : FieldT sh) (hε : Invariant a ε)
    (hμ : Invariant a μ) (E2 H2 : SecField)
    (hm : IsMode (n0 := sh (a + 1)) (n1 := sh (a + 2)) (secDx d a sl) ω β0 (fun k i j => secOf ε a sl k i j)
      (fun k i j => secOf μ a sl k i j) (fun k i j => E2 k i j) (fun k i j => H2 k i j)) :
    ∃ E H : FieldT sh, SourceFree d a ω ε μ E H ∧
      (∀ b c, (c a).val + 1 < sh a → E b (nextCell a c) = Complex.exp (-Complex.I * β * w) * E b c ∧
        H b (nextCell a c) = Complex.exp (-Complex.I * β * w) * H b c) ∧
      ∀ c : Cell sh, (c a).val = s → E (a + 1) c = E2 0 (c (a + 1)) (c (a + 2)) ∧ E (a + 2) c = E2 1 (c (a + 1)) (c (a + 2)) := by
  refine ⟨_, _, ext_sourceFree (sh := sh) hw hde hdh hs hlt hβ hε hμ hm, ?_, ?_⟩
  · intro b c hc
    exact ⟨(ext_next s β w E2 b c hc).1, (ext_next s β w H2 b c hc).2⟩
  · intro c hc
    have hg0 : guidePhase β w 0 = 1 := by rw [guidePhase, mul_zero, Complex.exp_zero]
    simp only [extE, if_neg (a1_ne a), if_neg (a2_ne a), add_zero, hc, sub_self, hg0, mul_one, (rev_eq a).1, (rev_eq a).2.1]
    exact ⟨trivial, trivial⟩

example : ∃ E H : FieldT sh5, SourceFree dx1 2 1 (fun _ _ => 1) (fun _ _ => 1) E H ∧
    ∀ c : Cell sh5, (c 2).val = 2 → E 0 c = 1 := by
  obtain ⟨E, H, h1, -, h3⟩ := discrete_wavenumber (sh := sh5) dx1 2 1 one_ne_zero (fun _ _ => rfl) (fun _ _ => rfl) sl5 2 sl5_plane
    (by decide) 1 1 (Real.pi / 3 : ℝ) (by
      rw [mul_one, mul_one, show ((Real.pi / 3 : ℝ) : ℂ) / 2 = ((Real.pi / 6 : ℝ) : ℂ) by push_cast; ring, ← Complex.ofReal_sin,
        Real.sin_pi_div_six]
      norm_num) (fun _ _ => 1) (fun _ _ => 1) (const_invariant 2) (const_invariant 2) planeE planeH plane_mode
  exact ⟨E, H, h1, fun c hc => (h3 c hc).1⟩

/-- C74 fails: for every real wavenumber of a mode that travels on the unit grid, the correction leads away from the wavenumber of the
discretised guide. -/
theorem wavenumber_correction_away (β0 β : ℝ) (h0 : 0 < β0) (hβ : 0 < β) (h : 2 * Real.sin (β / 2) = β0) :
    ∃ x : ℝ, correctWavenumber β0 = x ∧ x < β0 ∧ β0 < β := by
  refine ⟨2 * Real.sin (β0 / 2), ?_, ?_, ?_⟩
  · rw [correctWavenumber, Complex.ofReal_re, Complex.ofReal_im]; congr 1; ring
  · have := Real.sin_lt (show 0 < β0 / 2 by linarith); linarith
  · have := Real.sin_lt (show 0 < β / 2 by linarith); linarith

theorem wavenumber_correction_false : ¬ ∀ β0 β : ℝ, 0 < β0 → 0 < β → β ≤ Real.pi → 2 * Real.sin (β / 2) = β0 →
    ‖correctWavenumber β0 - β‖ ≤ ‖(β0 : ℂ) - β‖ := by
  intro hall
  have hp := Real.pi_pos
  have hs : 2 * Real.sin (Real.pi / 3 / 2) = 1 := by
    rw [show Real.pi / 3 / 2 = Real.pi / 6 by ring, Real.sin_pi_div_six]; norm_num
  obtain ⟨x, h1, h2, h3⟩ := wavenumber_correction_away 1 (Real.pi / 3) one_pos (by linarith) hs
  have := hall 1 (Real.pi / 3) one_pos (by linarith) (by linarith) hs
  rw [h1, ← Complex.ofReal_sub, ← Complex.ofReal_sub, Complex.norm_real, Complex.norm_real, Real.norm_eq_abs, Real.norm_eq_abs,
    abs_of_neg (by linarith), abs_of_neg (by linarith)] at this
  linarith

/-- The correction of `fdfd_tools` brings the wavenumber closer to that of the discretised guide, without passing it. -/
theorem wavenumber_correction_tools (β0 β : ℝ) (hβ : 0 < β) (hπ : β ≤ Real.pi) (h : 2 * Real.sin (β / 2) = β0) :
    ∃ x : ℝ, correctWavenumberTools β0 = x ∧ β0 < x ∧ x ≤ β := by
  have hs0 : 0 < Real.sin (β / 2) := Real.sin_pos_of_pos_of_lt_pi (by linarith) (by linarith)
  refine ⟨2 * β0 - 2 * Real.sin (β0 / 2), ?_, ?_, ?_⟩
  · rw [correctWavenumberTools, Complex.ofReal_re]; push_cast; ring
  · have := Real.sin_lt (show 0 < β0 / 2 by linarith); linarith
  · have hmono : MonotoneOn (fun y : ℝ => y - 2 * Real.sin y + Real.sin (Real.sin y)) (Set.Icc 0 (Real.pi / 2)) := by
      have hder : ∀ y : ℝ, HasDerivAt (fun y : ℝ => y - 2 * Real.sin y + Real.sin (Real.sin y))
          (1 - 2 * Real.cos y + Real.cos (Real.sin y) * Real.cos y) y := fun y =>
        ((hasDerivAt_id y).sub ((Real.hasDerivAt_sin y).const_mul 2)).add ((Real.hasDerivAt_sin y).sin)
      refine monotoneOn_of_deriv_nonneg (convex_Icc _ _) (fun y _ => (hder y).continuousAt.continuousWithinAt)
        (fun y _ => (hder y).differentiableAt.differentiableWithinAt) ?_
      intro y hy
      rw [interior_Icc] at hy
      rw [(hder y).deriv]
      have hc0 : 0 ≤ Real.cos y := Real.cos_nonneg_of_neg_pi_div_two_le_of_le (by linarith [hy.1, Real.pi_pos]) (by linarith [hy.2])
      have hc1 := Real.cos_le_one y
      have hq := Real.one_sub_sq_div_two_le_cos (x := Real.sin y)
      have hsc := Real.sin_sq_add_cos_sq y
      have h1 : Real.cos y * (1 - Real.sin y ^ 2 / 2) ≤ Real.cos (Real.sin y) * Real.cos y := by
        rw [mul_comm]; exact mul_le_mul_of_nonneg_right hq hc0
      have h2 : 0 ≤ (1 - Real.cos y) * (1 - Real.cos y * (1 + Real.cos y) / 2) :=
        mul_nonneg (by linarith) (by nlinarith)
      nlinarith
    have := hmono (show (0 : ℝ) ∈ Set.Icc 0 (Real.pi / 2) from ⟨le_refl _, by linarith [Real.pi_pos]⟩)
      (show β / 2 ∈ Set.Icc 0 (Real.pi / 2) from ⟨by linarith, by linarith⟩) (by linarith)
    simp only [Real.sin_zero, mul_zero, sub_zero, add_zero] at this
    rw [show β0 / 2 = Real.sin (β / 2) by linarith]
    linarith

example : 2 * Real.sin (Real.pi / 3 / 2) = 1 := by
  rw [show Real.pi / 3 / 2 = Real.pi / 6 by ring, Real.sin_pi_div_six]; norm_num

/-- The correction turns a complex wavenumber into a real one: a decaying mode no longer decays. -/
theorem wavenumber_correction_lossy_false (k : ℂ) : (correctWavenumber k).im = 0 ∧
    (k.im ≠ 0 → correctWavenumber k - (correctWavenumber k.re) = (k.im : ℂ) ∧ (k.im : ℂ) ≠ k.im * Complex.I) := by
  refine ⟨Complex.ofReal_im _, fun hk => ⟨?_, ?_⟩⟩
  · rw [correctWavenumber, correctWavenumber, Complex.ofReal_re, Complex.ofReal_im]; push_cast; ring
  · intro h
    have := congrArg Complex.re h
    simp at this
    exact hk this

end Verif.Fdfd
