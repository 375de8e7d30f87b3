import Verif.Fdfd.ConvertProps
/-
Property C55: the Poynting operators agree with each other and balance power.
-/
namespace Verif.Fdfd
open Matrix
variable {sh : Shape}

/-! ### Specification -/

/-- Widths of the cell `c` on the grid of electric cells in the two directions orthogonal to `a`, multiplied. -/
def faceArea (d : Dxes) (a : Fin 3) (c : Cell sh) : ℂ := d.e (a + 1) (c (a + 1)) * d.e (a + 2) (c (a + 2))

/-- Component `a` of the cross product of `e` at the next cell along `a` with `h`, times the face area. -/
def flux (d : Dxes) (e h : FieldT sh) (a : Fin 3) (c : Cell sh) : ℂ :=
  faceArea d a c * (e (a + 1) (nextCell a c) * h (a + 2) c - e (a + 2) (nextCell a c) * h (a + 1) c)

/-- What flows out of the cell `c` minus what flows in. -/
def netFlux (S : VField sh.size) (c : Cell sh) : ℂ := ∑ a, (S (a, pos c) - S (a, pos (prevCell a c)))

/-- All widths along each axis are equal, on both grids, and real. -/
def Uniform (sh : Shape) (d : Dxes) (w : Fin 3 → ℝ) : Prop :=
  ∀ a i, i < sh a → d.e a i = w a ∧ d.h a i = w a

/-! ### Lemmas -/

theorem shift_zero_mulVec (a : Fin 3) (v : Fin sh.size → ℂ) (c : Cell sh) :
    (shiftM sh a 1 0 *ᵥ v) (pos c) = v (pos (nextCell a c)) := by
  rw [shiftM, cmono_mulVec, move_next]
  have : leave (sh a) 0 (↑(c a).val + 1) = 1 := by
    unfold leave
    simp
  rw [this, one_mul]

theorem shifts_zero : (forAxes fun i => rotationBlochShift i sh 1 0 0) = some (fun a => shiftM sh a 1 0) := by
  unfold forAxes
  simp only [rotation_zero, Pi.zero_apply, Option.bind_some, Option.map_some]
  congr 1
  funext a
  match a with
  | 0 => rfl
  | 1 => rfl
  | 2 => rfl

theorem bmat_diag3 {n : Nat} (X Y Z : Mat n) (v : VField n) (i : Fin n) :
    (bmat ![![X, 0, 0], ![0, Y, 0], ![0, 0, Z]] *ᵥ v) (0, i) = (X *ᵥ comp v 0) i ∧
    (bmat ![![X, 0, 0], ![0, Y, 0], ![0, 0, Z]] *ᵥ v) (1, i) = (Y *ᵥ comp v 1) i ∧
    (bmat ![![X, 0, 0], ![0, Y, 0], ![0, 0, Z]] *ᵥ v) (2, i) = (Z *ᵥ comp v 2) i := by
  refine ⟨?_, ?_, ?_⟩
  all_goals rw [bmat_mulVec, Fin.sum_univ_three]
  · show (X *ᵥ comp v 0) i + ((0 : Mat n) *ᵥ comp v 1) i + ((0 : Mat n) *ᵥ comp v 2) i = _
    simp
  · show ((0 : Mat n) *ᵥ comp v 0) i + (Y *ᵥ comp v 1) i + ((0 : Mat n) *ᵥ comp v 2) i = _
    simp
  · show ((0 : Mat n) *ᵥ comp v 0) i + ((0 : Mat n) *ᵥ comp v 1) i + (Z *ᵥ comp v 2) i = _
    simp

theorem chewArea_mulVec (d : Dxes) (v : VField sh.size) (a : Fin 3) (c : Cell sh) :
    (chewArea sh d *ᵥ v) (a, pos c) = faceArea d a c * v (a, pos c) := by
  have hA : chewArea sh d = bmat ![![cdiag (fun c => d.e 1 (c 1) * d.e 2 (c 2)), 0, 0],
      ![0, cdiag (fun c => d.e 0 (c 0) * d.e 2 (c 2)), 0], ![0, 0, cdiag (fun c => d.e 0 (c 0) * d.e 1 (c 1))]] := by
    unfold chewArea
    simp only [diags_mesh', cdiag_mul]
  obtain ⟨h0, h1, h2⟩ := bmat_diag3 (cdiag (fun c : Cell sh => d.e 1 (c 1) * d.e 2 (c 2)))
    (cdiag (fun c => d.e 0 (c 0) * d.e 2 (c 2))) (cdiag (fun c => d.e 0 (c 0) * d.e 1 (c 1))) v (pos c)
  rw [cdiag_mulVec] at h0 h1 h2
  rw [hA]
  match a with
  | 0 => exact h0
  | 1 =>
    refine h1.trans ?_
    show d.e 0 (c 0) * d.e 2 (c 2) * v (1, pos c) = d.e 2 (c 2) * d.e 0 (c 0) * v (1, pos c)
    ring
  | 2 => exact h2

theorem diagN_mulVec {n : Nat} (v x : Fin n → ℂ) (p : Fin n) : (Matrix.diagonal v *ᵥ x) p = v p * x p :=
  Matrix.mulVec_diagonal v x p

/-! ### Theorems -/

/-- C55: `poynting_chew_e_cross(E) @ H` is the flux of `E × H` through the faces of the cells. -/
theorem chew_e_pointwise (d : Dxes) (e h : FieldT sh) (E H : VField sh.size) (hE : IsVec e E) (hH : IsVec h H)
    (P : Mat3 sh.size) (hP : poyntingChewECross sh E d = some P) : IsVec (flux d e h) (P *ᵥ H) := by
  intro a c
  rw [poyntingChewECross, shifts_zero, Option.map_some, Option.some.injEq] at hP
  rw [← hP, ← Matrix.mulVec_mulVec, chewArea_mulVec, flux]
  congr 1
  rw [bmat_mulVec, Fin.sum_univ_three]
  have hs : ∀ (a b : Fin 3), (shiftM sh a 1 0 *ᵥ fun i => E (b, i)) (pos c) = e b (nextCell a c) := fun a b => by
    rw [shift_zero_mulVec, hE]
  match a with
  | 0 =>
    show ((0 : Mat sh.size) *ᵥ comp H 0) (pos c) + (-(Matrix.diagonal _) *ᵥ comp H 1) (pos c) +
      (Matrix.diagonal _ *ᵥ comp H 2) (pos c) = _
    rw [Matrix.zero_mulVec, Matrix.neg_mulVec, Pi.neg_apply, diagN_mulVec, diagN_mulVec, hs, hs]
    show 0 + -(e 2 (nextCell 0 c) * H (1, pos c)) + e 1 (nextCell 0 c) * H (2, pos c) =
      e 1 (nextCell 0 c) * h 2 c - e 2 (nextCell 0 c) * h 1 c
    rw [hH, hH]; ring
  | 1 =>
    show (Matrix.diagonal _ *ᵥ comp H 0) (pos c) + ((0 : Mat sh.size) *ᵥ comp H 1) (pos c) +
      (-(Matrix.diagonal _) *ᵥ comp H 2) (pos c) = _
    rw [Matrix.zero_mulVec, Matrix.neg_mulVec, Pi.neg_apply, diagN_mulVec, diagN_mulVec, hs, hs]
    show e 2 (nextCell 1 c) * H (0, pos c) + 0 + -(e 0 (nextCell 1 c) * H (2, pos c)) =
      e 2 (nextCell 1 c) * h 0 c - e 0 (nextCell 1 c) * h 2 c
    rw [hH, hH]; ring
  | 2 =>
    show (-(Matrix.diagonal _) *ᵥ comp H 0) (pos c) + (Matrix.diagonal _ *ᵥ comp H 1) (pos c) +
      ((0 : Mat sh.size) *ᵥ comp H 2) (pos c) = _
    rw [Matrix.zero_mulVec, Matrix.neg_mulVec, Pi.neg_apply, diagN_mulVec, diagN_mulVec, hs, hs]
    show -(e 1 (nextCell 2 c) * H (0, pos c)) + e 0 (nextCell 2 c) * H (1, pos c) + 0 =
      e 0 (nextCell 2 c) * h 1 c - e 1 (nextCell 2 c) * h 0 c
    rw [hH, hH]; ring

/-- C55: `-poynting_chew_h_cross(H) @ E` is the same flux. -/
theorem chew_h_pointwise (d : Dxes) (e h : FieldT sh) (E H : VField sh.size) (hE : IsVec e E) (hH : IsVec h H)
    (P : Mat3 sh.size) (hP : poyntingChewHCross sh H d = some P) : IsVec (flux d e h) (-(P *ᵥ E)) := by
  intro a c
  rw [poyntingChewHCross, shifts_zero, Option.map_some, Option.some.injEq] at hP
  rw [Pi.neg_apply, ← hP, ← Matrix.mulVec_mulVec, chewArea_mulVec, flux, neg_mul_eq_mul_neg]
  congr 1
  rw [bmat_mulVec, Fin.sum_univ_three]
  have hs : ∀ (a b : Fin 3), (shiftM sh a 1 0 *ᵥ comp E b) (pos c) = e b (nextCell a c) := fun a b => by
    rw [shift_zero_mulVec]; exact hE b _
  match a with
  | 0 =>
    show -(((0 : Mat sh.size) *ᵥ comp E 0) (pos c) + ((-(Matrix.diagonal _) * shiftM sh 0 1 0) *ᵥ comp E 1) (pos c) +
      ((Matrix.diagonal _ * shiftM sh 0 1 0) *ᵥ comp E 2) (pos c)) = _
    rw [Matrix.zero_mulVec, ← Matrix.mulVec_mulVec, ← Matrix.mulVec_mulVec, Matrix.neg_mulVec, Pi.neg_apply, diagN_mulVec,
      diagN_mulVec, hs, hs, hH, hH]
    show -(0 + -(h 2 c * e 1 (nextCell 0 c)) + h 1 c * e 2 (nextCell 0 c)) =
      e 1 (nextCell 0 c) * h 2 c - e 2 (nextCell 0 c) * h 1 c
    ring
  | 1 =>
    show -(((Matrix.diagonal _ * shiftM sh 1 1 0) *ᵥ comp E 0) (pos c) + ((0 : Mat sh.size) *ᵥ comp E 1) (pos c) +
      ((-(Matrix.diagonal _) * shiftM sh 1 1 0) *ᵥ comp E 2) (pos c)) = _
    rw [Matrix.zero_mulVec, ← Matrix.mulVec_mulVec, ← Matrix.mulVec_mulVec, Matrix.neg_mulVec, Pi.neg_apply, diagN_mulVec,
      diagN_mulVec, hs, hs, hH, hH]
    show -(h 2 c * e 0 (nextCell 1 c) + 0 + -(h 0 c * e 2 (nextCell 1 c))) =
      e 2 (nextCell 1 c) * h 0 c - e 0 (nextCell 1 c) * h 2 c
    ring
  | 2 =>
    show -(((-(Matrix.diagonal _) * shiftM sh 2 1 0) *ᵥ comp E 0) (pos c) +
      ((Matrix.diagonal _ * shiftM sh 2 1 0) *ᵥ comp E 1) (pos c) + ((0 : Mat sh.size) *ᵥ comp E 2) (pos c)) = _
    rw [Matrix.zero_mulVec, ← Matrix.mulVec_mulVec, ← Matrix.mulVec_mulVec, Matrix.neg_mulVec, Pi.neg_apply, diagN_mulVec,
      diagN_mulVec, hs, hs, hH, hH]
    show -(-(h 1 c * e 0 (nextCell 2 c)) + h 0 c * e 1 (nextCell 2 c) + 0) =
      e 0 (nextCell 2 c) * h 1 c - e 1 (nextCell 2 c) * h 0 c
    ring

/-- C55: on real grids, `poynting_chew_e_cross(E) @ conj(H)` and `-conj(poynting_chew_h_cross(H)) @ E` are equal. -/
theorem chew_agree (d : Dxes) (hd : ∀ a i, star (d.e a i) = d.e a i) (E H : VField sh.size) (P Q : Mat3 sh.size)
    (hP : poyntingChewECross sh E d = some P) (hQ : poyntingChewHCross sh H d = some Q) :
    P *ᵥ (fun p => star (H p)) = -((Q.map star) *ᵥ E) := by
  have hE : ∀ F : VField sh.size, IsVec (fun a c => F (a, pos c)) F := fun F a c => rfl
  have hstar : ∀ x : ℂ, star x = (starRingEnd ℂ) x := fun x => rfl
  funext ⟨a, i⟩
  obtain ⟨c, rfl⟩ := pos_bijective.2 i
  have h1 := chew_e_pointwise d _ _ E (fun p => star (H p)) (hE E) (hE _) P hP a c
  have h2 := chew_h_pointwise d _ _ (fun p => star (E p)) H (hE _) (hE H) Q hQ a c
  rw [h1, Pi.neg_apply]
  have h3 : ((Q.map star) *ᵥ E) (a, pos c) = star ((Q *ᵥ fun p => star (E p)) (a, pos c)) := by
    simp only [Matrix.mulVec, dotProduct, Matrix.map_apply, star_sum, star_mul', star_star]
  rw [h3]
  rw [Pi.neg_apply] at h2
  rw [← star_neg, h2]
  simp only [flux, faceArea, star_mul', star_sub, star_star, hd]

theorem face_next_prev (a : Fin 3) (c : Cell sh) : nextCell a (prevCell a c) = c := by
  funext b
  apply Fin.ext
  by_cases h : b = a
  · subst h
    have hc := (c b).isLt
    simp only [nextCell, prevCell, if_true]
    rw [Nat.mod_add_mod]
    have : (c b).val + (sh b - 1) + 1 = (c b).val + sh b := by omega
    rw [this, Nat.add_mod_right, Nat.mod_eq_of_lt hc]
  · simp [nextCell, prevCell, h]

theorem face_prev (d : Dxes) (a : Fin 3) (c : Cell sh) : faceArea d a (prevCell a c) = faceArea d a c := by
  have h : ∀ b, b ≠ a → prevCell a c b = c b := fun b hb => by simp [prevCell, hb]
  have h1 : ∀ a : Fin 3, a + 1 ≠ a := by decide
  have h2 : ∀ a : Fin 3, a + 2 ≠ a := by decide
  simp only [faceArea, h _ (h1 a), h _ (h2 a)]

/-- The product rule behind the balance: the net flux of `E × G` out of a cell, for every grid. -/
theorem net_flux (d : Dxes) (e g : FieldT sh) (c : Cell sh) :
    ∑ a, (flux d e g a c - flux d e g a (prevCell a c)) =
      ∑ a, faceArea d a c * (
        (g (a + 2) c * (e (a + 1) (nextCell a c) - e (a + 1) c) - g (a + 1) c * (e (a + 2) (nextCell a c) - e (a + 2) c)) +
        (e (a + 1) c * (g (a + 2) c - g (a + 2) (prevCell a c)) - e (a + 2) c * (g (a + 1) c - g (a + 1) (prevCell a c)))) := by
  apply Finset.sum_congr rfl
  intro a _
  simp only [flux, face_prev, face_next_prev]
  ring

/-- C55, power balance: on a uniform real grid without Bloch phase, let `E` solve the wave equation with current `J` at
the cell `c`, let `H = e2h E` and let frequency, permittivity and permeability be real there. Then the real part of the
power flowing out of the cell is the power delivered by the current, and zero without a current. -/
theorem power_balance (d : Dxes) (w : Fin 3 → ℝ) (hw : ∀ a, w a ≠ 0) (hd : Uniform sh d w) (omega : ℝ)
    (hω : omega ≠ 0) (eps mu : VField sh.size) (hμ : ∀ p, mu p ≠ 0) (A T P : Mat3 sh.size)
    (hA : eFull sh omega d eps (some mu) none none 0 0 = some A) (hT : e2h sh omega d (some mu) none 0 0 = some T)
    (E J : VField sh.size) (c : Cell sh) (hE : ∀ a, (A *ᵥ E) (a, pos c) = -Complex.I * omega * J (a, pos c))
    (hε : ∀ a, (eps (a, pos c)).im = 0) (hμr : ∀ a, (mu (a, pos c)).im = 0)
    (hP : poyntingChewECross sh E d = some P) :
    (netFlux (P *ᵥ fun p => star ((T *ᵥ E) p)) c).re =
      -(w 0 * w 1 * w 2) * ∑ a, (E (a, pos c) * star (J (a, pos c))).re := by
  have hI2 : Complex.I * Complex.I = -1 := Complex.I_mul_I
  obtain ⟨⟨ce, hce⟩, ⟨ch, hch⟩⟩ := curl_defined sh d 0
  set H : VField sh.size := T *ᵥ E with hH
  have hne : (-Complex.I * (omega : ℂ)) ≠ 0 :=
    mul_ne_zero (neg_ne_zero.2 Complex.I_ne_zero) (Complex.ofReal_ne_zero.2 hω)
  -- Maxwell's equations at the cell
  have m1 : ∀ p, (ce *ᵥ E) p = -Complex.I * omega * mu p * H p := by
    intro p
    simp only [e2h, hce, Option.map_some, Option.some.injEq] at hT
    rw [hH, ← hT, ← Matrix.mulVec_mulVec, diag_mulVec, Matrix.smul_mulVec, Pi.smul_apply, smul_eq_mul]
    have := hμ p
    have ho : (omega : ℂ) ≠ 0 := Complex.ofReal_ne_zero.2 hω
    field_simp
  have m2 : ∀ a, (ch *ᵥ H) (a, pos c) = J (a, pos c) + Complex.I * omega * eps (a, pos c) * E (a, pos c) := by
    intro a
    have h1 := hE a
    simp only [eFull, hce, hch, Option.bind_some, Option.map_some, Option.some.injEq, maskMat] at hA
    have e1 : (invMat (some mu) *ᵥ (ce *ᵥ E)) = (-Complex.I * omega) • H := by
      funext q
      have := hμ q
      simp only [invMat, diag_mulVec, Pi.smul_apply, smul_eq_mul, m1 q]
      field_simp
    rw [← hA] at h1
    simp only [Matrix.mul_one, Matrix.one_mul, Matrix.sub_mulVec, ← Matrix.mulVec_mulVec, e1, Matrix.mulVec_smul,
      Matrix.smul_mulVec, Pi.sub_apply, Pi.smul_apply, smul_eq_mul, diag_mulVec] at h1
    apply mul_left_cancel₀ hne
    linear_combination h1 + ((omega : ℂ) ^ 2 * eps (a, pos c) * E (a, pos c)) * hI2
  have hV : ∀ F : VField sh.size, IsVec (fun a c => F (a, pos c)) F := fun F a c => rfl
  have hwc : ∀ a, ((w a : ℝ) : ℂ) ≠ 0 := fun a => Complex.ofReal_ne_zero.2 (hw a)
  have de : ∀ a, d.e a (c a) = w a := fun a => (hd a _ (c a).isLt).1
  have dh : ∀ a, d.h a (c a) = w a := fun a => (hd a _ (c a).isLt).2
  -- differences from the curls
  obtain ⟨p0, p1, p2⟩ := curl_e_pointwise d 0 ce hce _ E (hV E) c
  obtain ⟨q0, q1, q2⟩ := curl_h_pointwise d 0 ch hch _ H (hV H) c
  rw [m1] at p0 p1 p2
  rw [m2] at q0 q1 q2
  have fw : ∀ (f : Cell sh → ℂ) a, fwdDiff d.e 0 a f c = (f (nextCell a c) - f c) / w a := by
    intro f a; simp [fwdDiff, upPhase, de]
  have bk : ∀ (f : Cell sh → ℂ) a, backDiff d.h 0 a f c = (f c - f (prevCell a c)) / w a := by
    intro f a; simp [backDiff, downPhase, dh]
  rw [fw, fw] at p0 p1 p2
  rw [bk, bk] at q0 q1 q2
  -- the net flux
  have hn : netFlux (P *ᵥ fun p => star (H p)) c =
      ∑ a, (flux d (fun a c => E (a, pos c)) (fun a c => star (H (a, pos c))) a c -
        flux d (fun a c => E (a, pos c)) (fun a c => star (H (a, pos c))) a (prevCell a c)) := by
    unfold netFlux
    apply Finset.sum_congr rfl
    intro a _
    have hp := chew_e_pointwise d (fun a c => E (a, pos c)) (fun a c => star (H (a, pos c))) E (fun p => star (H p)) (hV E)
      (hV fun p => star (H p)) P hP
    rw [hp a c, hp a (prevCell a c)]
  rw [hn, net_flux, Fin.sum_univ_three]
  simp only [faceArea, Fin.isValue, show (0 : Fin 3) + 1 = 1 from rfl, show (0 : Fin 3) + 2 = 2 from rfl,
    show (1 : Fin 3) + 1 = 2 from rfl, show (1 : Fin 3) + 2 = 0 from rfl, show (2 : Fin 3) + 1 = 0 from rfl,
    show (2 : Fin 3) + 2 = 1 from rfl]
  have w0 := hwc 0
  have w1 := hwc 1
  have w2 := hwc 2
  have sw : ∀ a, star ((w a : ℝ) : ℂ) = w a := fun a => Complex.conj_ofReal _
  have so : star ((omega : ℝ) : ℂ) = omega := Complex.conj_ofReal _
  have sI : star Complex.I = -Complex.I := Complex.conj_I
  have se : ∀ a, star (eps (a, pos c)) = eps (a, pos c) := fun a => Complex.conj_eq_iff_im.2 (hε a)
  have r0 := congrArg star q0
  have r1 := congrArg star q1
  have r2 := congrArg star q2
  simp only [star_mul', star_add, star_sub, star_div₀, sw, so, sI, se] at r0 r1 r2
  have clear3 : ∀ x y z u v : ℂ, u ≠ 0 → v ≠ 0 → x = y / u - z / v → u * v * x = v * y - u * z := by
    intro x y z u v hu hv h
    rw [h]; field_simp
  have p0' := clear3 _ _ _ _ _ w1 w2 p0
  have p1' := clear3 _ _ _ _ _ w2 w0 p1
  have p2' := clear3 _ _ _ _ _ w0 w1 p2
  have r0' := clear3 _ _ _ _ _ w1 w2 r0
  have r1' := clear3 _ _ _ _ _ w2 w0 r1
  have r2' := clear3 _ _ _ _ _ w0 w1 r2
  have hreal : ∀ (x y : ℂ), x.im = 0 → (Complex.I * omega * (x * (y * star y))).re = 0 := by
    intro x y hx
    have h1 : y * star y = ((Complex.normSq y : ℝ) : ℂ) := Complex.mul_conj y
    have h2 : x = ((x.re : ℝ) : ℂ) := Complex.ext rfl (by simpa using hx)
    rw [h1, h2, mul_assoc, ← Complex.ofReal_mul, ← Complex.ofReal_mul, Complex.re_mul_ofReal]
    simp
  trans ((-((w 0 * w 1 * w 2 : ℝ) : ℂ) * (E (0, pos c) * star (J (0, pos c)) + E (1, pos c) * star (J (1, pos c)) +
      E (2, pos c) * star (J (2, pos c)))) + ((w 0 * w 1 * w 2 : ℝ) : ℂ) * (
      Complex.I * omega * (eps (0, pos c) * (E (0, pos c) * star (E (0, pos c)))) +
      Complex.I * omega * (eps (1, pos c) * (E (1, pos c) * star (E (1, pos c)))) +
      Complex.I * omega * (eps (2, pos c) * (E (2, pos c) * star (E (2, pos c)))) -
      Complex.I * omega * (mu (0, pos c) * (H (0, pos c) * star (H (0, pos c)))) -
      Complex.I * omega * (mu (1, pos c) * (H (1, pos c) * star (H (1, pos c)))) -
      Complex.I * omega * (mu (2, pos c) * (H (2, pos c) * star (H (2, pos c)))))).re
  · congr 1
    push_cast
    simp only [de]
    linear_combination (-(star (H (0, pos c)) * w 0)) * p0' - (star (H (1, pos c)) * w 1) * p1' -
      (star (H (2, pos c)) * w 2) * p2' + (E (0, pos c) * w 0) * r0' + (E (1, pos c) * w 1) * r1' +
      (E (2, pos c) * w 2) * r2'
  · rw [Complex.add_re, Complex.re_ofReal_mul, Complex.sub_re, Complex.sub_re, Complex.sub_re, Complex.add_re,
      Complex.add_re, hreal _ _ (hε 0), hreal _ _ (hε 1), hreal _ _ (hε 2), hreal _ _ (hμr 0), hreal _ _ (hμr 1),
      hreal _ _ (hμr 2), ← Complex.ofReal_neg, Complex.re_ofReal_mul, Complex.add_re, Complex.add_re, Fin.sum_univ_three]
    ring

/-- A case that meets the hypotheses: a uniform grid, real materials and every field, with the current it needs. -/
example (E : VField twoShape.size) : ∃ (A T P : Mat3 twoShape.size) (J : VField twoShape.size),
    Uniform twoShape unitDxes (fun _ => 1) ∧
    eFull twoShape ((1 : ℝ) : ℂ) unitDxes (fun _ => 1) (some fun _ => 1) none none 0 0 = some A ∧
    e2h twoShape ((1 : ℝ) : ℂ) unitDxes (some fun _ => 1) none 0 0 = some T ∧ poyntingChewECross twoShape E unitDxes = some P ∧
    ∀ a c, (A *ᵥ E) (a, pos c) = -Complex.I * ((1 : ℝ) : ℂ) * J (a, pos c) := by
  obtain ⟨⟨ce, hce⟩, ⟨ch, hch⟩⟩ := curl_defined twoShape unitDxes 0
  obtain ⟨A, hA⟩ : ∃ A, eFull twoShape ((1 : ℝ) : ℂ) unitDxes (fun _ => 1) (some fun _ => 1) none none 0 0 = some A :=
    ⟨_, by simp only [eFull, hce, hch, Option.bind_some, Option.map_some]; rfl⟩
  refine ⟨A, _, _, fun p => Complex.I * (A *ᵥ E) p, fun a i _ => by simp [unitDxes], hA,
    by simp only [e2h, hce, Option.map_some]; rfl, by rw [poyntingChewECross, shifts_zero, Option.map_some], fun a c => ?_⟩
  have hI2 : Complex.I * Complex.I = -1 := Complex.I_mul_I
  push_cast
  linear_combination ((A *ᵥ E) (a, pos c)) * hI2

end Verif.Fdfd
