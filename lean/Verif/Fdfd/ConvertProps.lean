import Verif.Fdfd.CurlProps
/-
Property C56: `e_full`, `h_full`, `eh_full`, `e2h`, `h2e` and `m2j` describe the same Maxwell equations
`curl_e E + i ω μ H = M`, `curl_h H - i ω ε E = J`.
-/
namespace Verif.Fdfd
open Matrix
variable {sh : Shape}

/-! ### Specification -/

/-- The field vanishes in the masked cells. -/
def VanishesOn {n : Nat} (m : Option (Fin 3 × Fin n → Bool)) (f : VField n) : Prop :=
  ∀ m', m = some m' → ∀ p, m' p = true → f p = 0

/-- The pair of Maxwell equations with electric current `J` and magnetic current `M`, curls `ce` and `ch`, in the cells
that are not masked. -/
def Maxwell {n : Nat} (ce ch : Mat3 n) (omega : ℂ) (eps mu : VField n) (pec pmc : Option (Fin 3 × Fin n → Bool))
    (E H J M : VField n) : Prop :=
  (∀ p, (∀ m, pec = some m → m p = false) → (ch *ᵥ H) p - Complex.I * omega * eps p * E p = J p) ∧
  (∀ p, (∀ m, pmc = some m → m p = false) → (ce *ᵥ E) p + Complex.I * omega * mu p * H p = M p)

/-! ### Lemmas -/

/-- The 0-1 vector of a mask. -/
noncomputable def maskVec {n : Nat} : Option (Fin 3 × Fin n → Bool) → VField n
  | none => fun _ => 1
  | some m => fun p => if m p then 0 else 1

theorem maskMat_eq {n : Nat} (m : Option (Fin 3 × Fin n → Bool)) : maskMat m = Matrix.diagonal (maskVec m) := by
  cases m with
  | none => exact Matrix.diagonal_one.symm
  | some m => rfl

theorem maskVec_mul {n : Nat} {m : Option (Fin 3 × Fin n → Bool)} {f : VField n} :
    VanishesOn m f ↔ ∀ p, maskVec m p * f p = f p := by
  cases m with
  | none => exact ⟨fun _ p => one_mul _, fun _ m' h => by cases h⟩
  | some m =>
    constructor
    · intro h p
      simp only [maskVec]
      split
      · next hp => rw [h m rfl p hp, mul_zero]
      · rw [one_mul]
    · intro h m' hm p hp
      cases hm
      have := h p
      simp only [maskVec, if_pos hp, zero_mul] at this
      exact this.symm

theorem maskVec_idem {n : Nat} (m : Option (Fin 3 × Fin n → Bool)) (p : Fin 3 × Fin n) (x : ℂ) :
    maskVec m p * (maskVec m p * x) = maskVec m p * x := by
  cases m with
  | none => simp [maskVec]
  | some m => simp only [maskVec]; split <;> simp

theorem maskVec_cases {n : Nat} (m : Option (Fin 3 × Fin n → Bool)) (p : Fin 3 × Fin n) :
    (maskVec m p = 1 ∧ ∀ m', m = some m' → m' p = false) ∨ (maskVec m p = 0 ∧ ∃ m', m = some m' ∧ m' p = true) := by
  cases m with
  | none => exact Or.inl ⟨rfl, fun _ h => by cases h⟩
  | some m =>
    cases hm : m p with
    | true => exact Or.inr ⟨by simp [maskVec, hm], m, rfl, hm⟩
    | false => exact Or.inl ⟨by simp [maskVec, hm], fun m' h => by cases h; exact hm⟩

theorem diag_mulVec {n : Nat} (v x : VField n) (p : Fin 3 × Fin n) : (Matrix.diagonal v *ᵥ x) p = v p * x p :=
  Matrix.mulVec_diagonal v x p

theorem mulVec_smul_fun {n : Nat} (A : Mat3 n) (a : ℂ) (x : VField n) (p : Fin 3 × Fin n) :
    (A *ᵥ fun q => a * x q) p = a * (A *ᵥ x) p := by
  have : (fun q => a * x q) = a • x := rfl
  rw [this, Matrix.mulVec_smul]; rfl

/-- `eh_full`, entry by entry, on fields that vanish in the masked cells. -/
theorem ehFull_iff (omega : ℂ) (d : Dxes) (eps mu : VField sh.size) (pec pmc : Option (Fin 3 × Fin sh.size → Bool))
    (k : Fin 3 → ℂ) (so : Fin 3 → Fin 3 → Int) (B) (hB : ehFull sh omega d eps (some mu) pec pmc k so = some B)
    (ce ch : Mat3 sh.size) (hce : curlE sh d k so = some ce) (hch : curlH sh d k so = some ch)
    (E H J M : VField sh.size) (hE : VanishesOn pec E) (hH : VanishesOn pmc H) :
    B *ᵥ Sum.elim E H = Sum.elim J M ↔
      (∀ p, maskVec pec p * ((ch *ᵥ H) p - Complex.I * omega * eps p * E p) = J p) ∧
      (∀ p, maskVec pmc p * ((ce *ᵥ E) p + Complex.I * omega * mu p * H p) = M p) := by
  have fE : (fun p => maskVec pec p * E p) = E := funext (maskVec_mul.1 hE)
  have fH : (fun p => maskVec pmc p * H p) = H := funext (maskVec_mul.1 hH)
  simp only [ehFull, hce, hch, Option.bind_some, Option.map_some, Option.some.injEq] at hB
  rw [← hB, maskMat_eq, maskMat_eq, Matrix.fromBlocks_mulVec]
  have mE : Matrix.diagonal (maskVec pec) *ᵥ E = E := by
    funext p; rw [diag_mulVec]; exact maskVec_mul.1 hE p
  have mH : Matrix.diagonal (maskVec pmc) *ᵥ H = H := by
    funext p; rw [diag_mulVec]; exact maskVec_mul.1 hH p
  have r1 : ∀ p, (-(Matrix.diagonal (maskVec pec) * (Complex.I * omega) • Matrix.diagonal eps *
      Matrix.diagonal (maskVec pec)) *ᵥ E + (Matrix.diagonal (maskVec pec) * ch * Matrix.diagonal (maskVec pmc)) *ᵥ H) p =
      maskVec pec p * ((ch *ᵥ H) p - Complex.I * omega * eps p * E p) := by
    intro p
    rw [Matrix.neg_mulVec, Pi.add_apply, Pi.neg_apply]
    simp only [← Matrix.mulVec_mulVec, mE, mH, diag_mulVec, Matrix.smul_mulVec, Pi.smul_apply, smul_eq_mul]
    ring
  have r2 : ∀ p, ((Matrix.diagonal (maskVec pmc) * ce * Matrix.diagonal (maskVec pec)) *ᵥ E +
      (Matrix.diagonal (maskVec pmc) * (Complex.I * omega) • Matrix.diagonal mu * Matrix.diagonal (maskVec pmc)) *ᵥ H) p =
      maskVec pmc p * ((ce *ᵥ E) p + Complex.I * omega * mu p * H p) := by
    intro p
    rw [Pi.add_apply]
    simp only [← Matrix.mulVec_mulVec, mE, mH, diag_mulVec, Matrix.smul_mulVec, Pi.smul_apply, smul_eq_mul]
    ring
  constructor
  · intro h
    refine ⟨fun p => ?_, fun p => ?_⟩
    · have := congrFun h (Sum.inl p)
      simp only [Sum.elim_inl, Function.comp_def] at this
      rw [← this]
      exact (r1 p).symm
    · have := congrFun h (Sum.inr p)
      simp only [Sum.elim_inr, Function.comp_def] at this
      rw [← this]
      exact (r2 p).symm
  · rintro ⟨h1, h2⟩
    funext q
    match q with
    | .inl p => exact (r1 p).trans (h1 p)
    | .inr p => exact (r2 p).trans (h2 p)

/-! ### Theorems -/

/-- C56: `eh_full` is the pair of Maxwell equations outside the conductors. -/
theorem eh_full_is_maxwell (omega : ℂ) (d : Dxes) (eps mu : VField sh.size)
    (pec pmc : Option (Fin 3 × Fin sh.size → Bool)) (k : Fin 3 → ℂ) (so : Fin 3 → Fin 3 → Int)
    (B) (hB : ehFull sh omega d eps (some mu) pec pmc k so = some B) (ce ch : Mat3 sh.size)
    (hce : curlE sh d k so = some ce) (hch : curlH sh d k so = some ch) (E H J M : VField sh.size)
    (hE : VanishesOn pec E) (hH : VanishesOn pmc H) (hJ : VanishesOn pec J) (hM : VanishesOn pmc M) :
    B *ᵥ Sum.elim E H = Sum.elim J M ↔ Maxwell ce ch omega eps mu pec pmc E H J M := by
  rw [ehFull_iff omega d eps mu pec pmc k so B hB ce ch hce hch E H J M hE hH]
  refine and_congr ?_ ?_
  · refine forall_congr' fun p => ?_
    rcases maskVec_cases pec p with ⟨h1, h2⟩ | ⟨h1, m, hm, hp⟩
    · rw [h1, one_mul]; exact ⟨fun h _ => h, fun h => h h2⟩
    · rw [h1, zero_mul, hJ m hm p hp]
      exact ⟨fun _ h => absurd (h m hm) (by rw [hp]; decide), fun _ => rfl⟩
  · refine forall_congr' fun p => ?_
    rcases maskVec_cases pmc p with ⟨h1, h2⟩ | ⟨h1, m, hm, hp⟩
    · rw [h1, one_mul]; exact ⟨fun h _ => h, fun h => h h2⟩
    · rw [h1, zero_mul, hM m hm p hp]
      exact ⟨fun _ h => absurd (h m hm) (by rw [hp]; decide), fun _ => rfl⟩

/-- C56: the electric field solves `e_full E = -i ω J` and `H = e2h E` exactly if the two solve `eh_full` with the
sources `J` and `0`, and `H` vanishes in the magnetic conductors. -/
theorem e_full_iff_eh_full (omega : ℂ) (hω : omega ≠ 0) (d : Dxes) (eps mu : VField sh.size) (hμ : ∀ p, mu p ≠ 0)
    (pec pmc : Option (Fin 3 × Fin sh.size → Bool)) (k : Fin 3 → ℂ) (so : Fin 3 → Fin 3 → Int) (A T : Mat3 sh.size) (B)
    (hA : eFull sh omega d eps (some mu) pec pmc k so = some A)
    (hT : e2h sh omega d (some mu) pmc k so = some T)
    (hB : ehFull sh omega d eps (some mu) pec pmc k so = some B)
    (E H J : VField sh.size) (hE : VanishesOn pec E) :
    ((∀ p, (A *ᵥ E) p = -Complex.I * omega * J p) ∧ H = T *ᵥ E) ↔
      (B *ᵥ Sum.elim E H = Sum.elim J 0 ∧ VanishesOn pmc H) := by
  have hI := Complex.I_ne_zero
  have hI2 : Complex.I * Complex.I = -1 := Complex.I_mul_I
  obtain ⟨ce, hce⟩ : ∃ ce, curlE sh d k so = some ce := by
    cases h : curlE sh d k so with
    | none => simp [e2h, h] at hT
    | some ce => exact ⟨ce, rfl⟩
  obtain ⟨ch, hch⟩ : ∃ ch, curlH sh d k so = some ch := by
    cases h : curlH sh d k so with
    | none => simp [eFull, h, hce] at hA
    | some ch => exact ⟨ch, rfl⟩
  have mE : Matrix.diagonal (maskVec pec) *ᵥ E = E := by
    funext p; rw [diag_mulVec]; exact maskVec_mul.1 hE p
  have tE : ∀ p, (T *ᵥ E) p = maskVec pmc p * ((ce *ᵥ E) p / (-Complex.I * omega * mu p)) := by
    intro p
    simp only [e2h, hce, Option.map_some, Option.some.injEq] at hT
    cases pmc with
    | none =>
      rw [← hT]
      simp only [← Matrix.mulVec_mulVec, diag_mulVec, Matrix.smul_mulVec, Pi.smul_apply, smul_eq_mul, maskVec]
      field_simp
    | some m =>
      rw [← hT]
      simp only [← Matrix.mulVec_mulVec, diag_mulVec, Matrix.smul_mulVec, Pi.smul_apply, smul_eq_mul, maskVec]
      field_simp
  have aE : (A *ᵥ E) = fun p => maskVec pec p * ((ch *ᵥ fun q => maskVec pmc q * (1 / mu q * (ce *ᵥ E) q)) p -
      omega ^ 2 * eps p * E p) := by
    funext p
    simp only [eFull, hce, hch, Option.bind_some, Option.map_some, Option.some.injEq] at hA
    rw [← hA, maskMat_eq, maskMat_eq]
    have e1 : (Matrix.diagonal (maskVec pmc) *ᵥ (invMat (some mu) *ᵥ (ce *ᵥ E))) =
        fun q => maskVec pmc q * (1 / mu q * (ce *ᵥ E) q) := by
      funext q
      rw [diag_mulVec, invMat, diag_mulVec]
    simp only [← Matrix.mulVec_mulVec, mE, diag_mulVec, Matrix.sub_mulVec, Matrix.smul_mulVec, Pi.smul_apply,
      Pi.sub_apply, smul_eq_mul, e1]
    ring
  constructor
  · rintro ⟨h1, rfl⟩
    have hH : VanishesOn pmc (T *ᵥ E) := by
      rw [maskVec_mul]; intro p; rw [tE, maskVec_idem]
    refine ⟨?_, hH⟩
    rw [ehFull_iff omega d eps mu pec pmc k so B hB ce ch hce hch E _ J 0 hE hH]
    constructor
    · intro p
      have hx : (fun q => maskVec pmc q * (1 / mu q * (ce *ᵥ E) q)) = fun q => (-Complex.I * omega) * (T *ᵥ E) q := by
        funext q
        rw [tE]
        have := hμ q
        field_simp
      have := h1 p
      rw [aE, hx] at this
      dsimp only at this
      rw [mulVec_smul_fun] at this
      have hne : (-Complex.I * omega) ≠ 0 := mul_ne_zero (neg_ne_zero.2 hI) hω
      apply mul_left_cancel₀ hne
      rw [← this]
      linear_combination (omega ^ 2 * eps p * E p * maskVec pec p) * hI2
    · intro p
      rw [tE]
      have hm := hμ p
      have : maskVec pmc p * ((ce *ᵥ E) p + Complex.I * omega * mu p *
          (maskVec pmc p * ((ce *ᵥ E) p / (-Complex.I * omega * mu p)))) =
          maskVec pmc p * (ce *ᵥ E) p - maskVec pmc p * (maskVec pmc p * (ce *ᵥ E) p) := by
        field_simp
        ring
      rw [this, maskVec_idem, sub_self]; rfl
  · rintro ⟨h, hH⟩
    rw [ehFull_iff omega d eps mu pec pmc k so B hB ce ch hce hch E _ J 0 hE hH] at h
    obtain ⟨h1, h2⟩ := h
    have hHT : H = T *ᵥ E := by
      funext p
      rw [tE]
      have hm := hμ p
      have a := h2 p
      have b := maskVec_mul.1 hH p
      simp only [Pi.zero_apply] at a
      have hne : (Complex.I * omega * mu p) ≠ 0 := mul_ne_zero (mul_ne_zero hI hω) hm
      apply mul_left_cancel₀ hne
      have e : Complex.I * omega * mu p * (maskVec pmc p * ((ce *ᵥ E) p / (-Complex.I * omega * mu p))) =
          -(maskVec pmc p * (ce *ᵥ E) p) := by
        field_simp
      rw [e]
      linear_combination a - Complex.I * omega * mu p * b
    refine ⟨fun p => ?_, hHT⟩
    have hx : (fun q => maskVec pmc q * (1 / mu q * (ce *ᵥ E) q)) = fun q => (-Complex.I * omega) * H q := by
      funext q
      rw [hHT, tE]
      have := hμ q
      field_simp
    rw [aE, hx]
    dsimp only
    rw [mulVec_smul_fun, ← h1 p]
    linear_combination (-omega ^ 2 * eps p * E p * maskVec pec p) * hI2

/-- C56: the magnetic field solves `h_full H = i ω M` and `E = h2e H` exactly if the two solve `eh_full` with the
sources `0` and `M`. No electric conductors: `h2e` has none. -/
theorem h_full_iff_eh_full (omega : ℂ) (hω : omega ≠ 0) (d : Dxes) (eps mu : VField sh.size) (hε : ∀ p, eps p ≠ 0)
    (pmc : Option (Fin 3 × Fin sh.size → Bool)) (k : Fin 3 → ℂ) (so : Fin 3 → Fin 3 → Int) (A T : Mat3 sh.size) (B)
    (hA : hFull sh omega d eps (some mu) none pmc k so = some A)
    (hT : h2e sh omega d eps k so = some T)
    (hB : ehFull sh omega d eps (some mu) none pmc k so = some B)
    (E H M : VField sh.size) (hH : VanishesOn pmc H) :
    ((∀ p, (A *ᵥ H) p = Complex.I * omega * M p) ∧ E = T *ᵥ H) ↔ B *ᵥ Sum.elim E H = Sum.elim (0 : VField sh.size) M := by
  have hI := Complex.I_ne_zero
  have hI2 : Complex.I * Complex.I = -1 := Complex.I_mul_I
  obtain ⟨ch, hch⟩ : ∃ ch, curlH sh d k so = some ch := by
    cases h : curlH sh d k so with
    | none => simp [h2e, h] at hT
    | some ce => exact ⟨ce, rfl⟩
  obtain ⟨ce, hce⟩ : ∃ ce, curlE sh d k so = some ce := by
    cases h : curlE sh d k so with
    | none => simp [hFull, h] at hA
    | some ch => exact ⟨ch, rfl⟩
  have mH : Matrix.diagonal (maskVec pmc) *ᵥ H = H := by
    funext p; rw [diag_mulVec]; exact maskVec_mul.1 hH p
  have hE : VanishesOn (none : Option (Fin 3 × Fin sh.size → Bool)) E := fun _ h => by cases h
  have tH : ∀ p, (T *ᵥ H) p = 1 / (Complex.I * omega * eps p) * (ch *ᵥ H) p := by
    intro p
    simp only [h2e, hch, Option.map_some, Option.some.injEq] at hT
    rw [← hT, ← Matrix.mulVec_mulVec, diag_mulVec]
  have aH : (A *ᵥ H) = fun p => maskVec pmc p * ((ce *ᵥ fun q => 1 / eps q * (ch *ᵥ H) q) p -
      omega ^ 2 * mu p * H p) := by
    funext p
    simp only [hFull, hce, hch, Option.bind_some, Option.map_some, Option.some.injEq] at hA
    rw [← hA, maskMat_eq, maskMat_eq]
    have e1 : (Matrix.diagonal (maskVec none) *ᵥ (invMat (some eps) *ᵥ (ch *ᵥ H))) =
        fun q => 1 / eps q * (ch *ᵥ H) q := by
      funext q
      rw [diag_mulVec, invMat, diag_mulVec, maskVec, one_mul]
    simp only [← Matrix.mulVec_mulVec, mH, diag_mulVec, Matrix.sub_mulVec, Matrix.smul_mulVec, Pi.smul_apply,
      Pi.sub_apply, smul_eq_mul, e1, valMat]
    ring
  rw [ehFull_iff omega d eps mu none pmc k so B hB ce ch hce hch E H 0 M hE hH]
  have hx : E = T *ᵥ H → (fun q => 1 / eps q * (ch *ᵥ H) q) = fun q => (Complex.I * omega) * E q := by
    rintro rfl
    funext q
    rw [tH]
    have := hε q
    field_simp
  have hET : (∀ p, maskVec none p * ((ch *ᵥ H) p - Complex.I * omega * eps p * E p) = (0 : VField sh.size) p) ↔
      E = T *ᵥ H := by
    constructor
    · intro h
      funext p
      have a := h p
      simp only [maskVec, one_mul, Pi.zero_apply] at a
      have := hε p
      rw [tH, sub_eq_zero.1 a]
      field_simp
    · rintro rfl p
      have := hε p
      rw [tH]
      simp only [maskVec, one_mul, Pi.zero_apply]
      field_simp
      ring
  rw [hET]
  have hne : (Complex.I * omega) ≠ 0 := mul_ne_zero hI hω
  constructor
  · rintro ⟨h1, h2⟩
    refine ⟨h2, fun p => ?_⟩
    have a := h1 p
    rw [aH, hx h2] at a
    dsimp only at a
    rw [mulVec_smul_fun] at a
    apply mul_left_cancel₀ hne
    rw [← a]
    linear_combination (omega ^ 2 * mu p * H p * maskVec pmc p) * hI2
  · rintro ⟨h2, h1⟩
    refine ⟨fun p => ?_, h2⟩
    rw [aH, hx h2]
    dsimp only
    rw [mulVec_smul_fun, ← h1 p]
    linear_combination (-omega ^ 2 * mu p * H p * maskVec pmc p) * hI2

/-- C56: `m2j` replaces a magnetic current by an electric current, for the magnetic current `-M` of `eh_full`. -/
theorem m2j_equivalent_partial (omega : ℂ) (hω : omega ≠ 0) (d : Dxes) (eps mu : VField sh.size) (hμ : ∀ p, mu p ≠ 0)
    (k : Fin 3 → ℂ) (so : Fin 3 → Fin 3 → Int) (A T : Mat3 sh.size) (B)
    (hA : eFull sh omega d eps (some mu) none none k so = some A)
    (hT : m2j sh omega d (some mu) k so = some T)
    (hB : ehFull sh omega d eps (some mu) none none k so = some B)
    (E H M : VField sh.size) (h : B *ᵥ Sum.elim E H = Sum.elim (0 : VField sh.size) (-M)) (p : Fin 3 × Fin sh.size) :
    (A *ᵥ E) p = -Complex.I * omega * (T *ᵥ M) p := by
  have hI := Complex.I_ne_zero
  have hI2 : Complex.I * Complex.I = -1 := Complex.I_mul_I
  obtain ⟨ch, hch⟩ : ∃ ch, curlH sh d k so = some ch := by
    cases h : curlH sh d k so with
    | none => simp [m2j, h] at hT
    | some ce => exact ⟨ce, rfl⟩
  obtain ⟨ce, hce⟩ : ∃ ce, curlE sh d k so = some ce := by
    cases h : curlE sh d k so with
    | none => simp [eFull, h] at hA
    | some ch => exact ⟨ch, rfl⟩
  have hE : ∀ F : VField sh.size, VanishesOn (none : Option (Fin 3 × Fin sh.size → Bool)) F := fun _ _ h => by cases h
  rw [ehFull_iff omega d eps mu none none k so B hB ce ch hce hch E H 0 _ (hE E) (hE H)] at h
  obtain ⟨h1, h2⟩ := h
  simp only [maskVec, one_mul, Pi.zero_apply, Pi.neg_apply] at h1 h2
  simp only [eFull, hce, hch, Option.bind_some, Option.map_some, Option.some.injEq, maskMat] at hA
  simp only [m2j, hch, Option.map_some, Option.some.injEq] at hT
  have e1 : (invMat (some mu) *ᵥ (ce *ᵥ E)) = (-1 : ℂ) • (Matrix.diagonal (fun p => 1 / mu p) *ᵥ M) + (-Complex.I * omega) • H := by
    funext q
    have := hμ q
    simp only [invMat, diag_mulVec, Pi.add_apply, Pi.smul_apply, smul_eq_mul]
    rw [eq_sub_of_add_eq (h2 q)]
    field_simp
    ring
  rw [← hA, ← hT]
  simp only [Matrix.mul_one, Matrix.one_mul, Matrix.sub_mulVec, ← Matrix.mulVec_mulVec, e1, Matrix.mulVec_add,
    Matrix.mulVec_smul, Matrix.smul_mulVec, Pi.sub_apply, Pi.add_apply, Pi.smul_apply, smul_eq_mul, diag_mulVec]
  rw [sub_eq_zero.1 (h1 p)]
  field_simp
  linear_combination (-omega ^ 2 * eps p * E p) * hI2

/-- A two-cell grid with unit cells, and a magnetic field on it. -/
def twoShape : Shape := ![2, 1, 1]
def unitDxes : Dxes := ⟨fun _ _ => 1, fun _ _ => 1⟩
noncomputable def twoH : FieldT twoShape := fun a c => if a = 2 ∧ (c 0).val = 0 then 1 else 0

theorem two_back (f : Cell twoShape → ℂ) (a : Fin 3) (c : Cell twoShape) :
    backDiff unitDxes.h 0 a f c = f c - f (prevCell a c) := by
  simp [backDiff, downPhase, unitDxes]

theorem two_fwd (f : Cell twoShape → ℂ) (a : Fin 3) (c : Cell twoShape) :
    fwdDiff unitDxes.e 0 a f c = f (nextCell a c) - f c := by
  simp [fwdDiff, upPhase, unitDxes]

/-- With the sign convention of `eh_full` and `h_full` for the magnetic current, `m2j` gives the wrong sign. -/
theorem m2j_equivalent_false : ¬ ∀ (sh : Shape) (omega : ℂ), omega ≠ 0 → ∀ (d : Dxes) (eps mu : VField sh.size),
    (∀ p, mu p ≠ 0) → ∀ (A T : Mat3 sh.size) (B), eFull sh omega d eps (some mu) none none 0 0 = some A →
    m2j sh omega d (some mu) 0 0 = some T → ehFull sh omega d eps (some mu) none none 0 0 = some B →
    ∀ (E H M : VField sh.size), B *ᵥ Sum.elim E H = Sum.elim (0 : VField sh.size) M →
    ∀ p, (A *ᵥ E) p = -Complex.I * omega * (T *ᵥ M) p := by
  intro h
  obtain ⟨⟨ce, hce⟩, ⟨ch, hch⟩⟩ := curl_defined twoShape unitDxes 0
  obtain ⟨A, hA⟩ : ∃ A, eFull twoShape 1 unitDxes (fun _ => 1) (some fun _ => 1) none none 0 0 = some A :=
    ⟨_, by simp only [eFull, hce, hch, Option.bind_some, Option.map_some]; rfl⟩
  obtain ⟨T, hT⟩ : ∃ T, m2j twoShape 1 unitDxes (some fun _ => 1) 0 0 = some T :=
    ⟨_, by simp only [m2j, hch, Option.map_some]; rfl⟩
  obtain ⟨B, hB⟩ : ∃ B, ehFull twoShape 1 unitDxes (fun _ => 1) (some fun _ => 1) none none 0 0 = some B :=
    ⟨_, by simp only [ehFull, hce, hch, Option.bind_some, Option.map_some]; rfl⟩
  -- the electric field belonging to `twoH`, and the magnetic current
  let e : FieldT twoShape := fun a c => if a = 1 then (if (c 0).val = 0 then Complex.I else -Complex.I) else 0
  let m : FieldT twoShape := fun a c => if a = 2 then (if (c 0).val = 0 then -Complex.I else 2 * Complex.I) else 0
  let vecOf : FieldT twoShape → VField twoShape.size := fun f p => f p.1 (cellAt p.2)
  have hvec : ∀ f, IsVec f (vecOf f) := fun f a c => by simp [vecOf]
  have hne : ∀ F : VField twoShape.size, VanishesOn (none : Option (Fin 3 × Fin twoShape.size → Bool)) F :=
    fun _ _ h => by cases h
  have hcell : ∀ c : Cell twoShape, (c 0).val = 0 ∨ (c 0).val = 1 := fun c => by
    have := (c 0).isLt
    have e : twoShape 0 = 2 := rfl
    omega
  have hn0 : ∀ c : Cell twoShape, (c 0).val = 0 → (nextCell 0 c 0).val = 1 := fun c h => by
    simp [nextCell, h, twoShape]
  have hn1 : ∀ c : Cell twoShape, (c 0).val = 1 → (nextCell 0 c 0).val = 0 := fun c h => by
    simp [nextCell, h, twoShape]
  have hp0 : ∀ c : Cell twoShape, (c 0).val = 0 → (prevCell 0 c 0).val = 1 := fun c h => by
    simp [prevCell, h, twoShape]
  have hp1 : ∀ c : Cell twoShape, (c 0).val = 1 → (prevCell 0 c 0).val = 0 := fun c h => by
    simp [prevCell, h, twoShape]
  have ho : ∀ (a : Fin 3), a ≠ 0 → ∀ c : Cell twoShape, (nextCell a c 0).val = (c 0).val ∧
      (prevCell a c 0).val = (c 0).val := fun a ha c => by
    simp [nextCell, prevCell, Ne.symm ha]
  have hsol : B *ᵥ Sum.elim (vecOf e) (vecOf twoH) = Sum.elim (0 : VField twoShape.size) (vecOf m) := by
    rw [ehFull_iff 1 unitDxes _ _ none none 0 0 B hB ce ch hce hch _ _ _ _ (hne _) (hne _)]
    constructor
    · rintro ⟨a, i⟩
      obtain ⟨c, rfl⟩ := pos_bijective.2 i
      obtain ⟨q0, q1, q2⟩ := curl_h_pointwise unitDxes 0 ch hch twoH _ (hvec twoH) c
      rw [two_back, two_back] at q0 q1 q2
      rw [hvec e]
      simp only [maskVec, one_mul, mul_one, Pi.zero_apply]
      match a with
      | 0 =>
        rw [q0]
        simp [twoH, e, ho]
      | 1 =>
        rw [q1]
        rcases hcell c with hc | hc
        · simp [twoH, e, ho, hc, hp0 c hc]
        · simp [twoH, e, ho, hc, hp1 c hc]
      | 2 =>
        rw [q2]
        simp [twoH, e, ho]
    · rintro ⟨a, i⟩
      obtain ⟨c, rfl⟩ := pos_bijective.2 i
      obtain ⟨q0, q1, q2⟩ := curl_e_pointwise unitDxes 0 ce hce e _ (hvec e) c
      rw [two_fwd, two_fwd] at q0 q1 q2
      rw [hvec twoH, hvec m]
      simp only [maskVec, one_mul, mul_one]
      match a with
      | 0 =>
        rw [q0]
        simp [twoH, e, m, ho]
      | 1 =>
        rw [q1]
        simp [twoH, e, m]
      | 2 =>
        rw [q2]
        rcases hcell c with hc | hc
        · simp [twoH, e, m, hc, hn0 c hc]
        · simp [twoH, e, m, hc, hn1 c hc]; ring
  have hsol' : B *ᵥ Sum.elim (vecOf e) (vecOf twoH) = Sum.elim (0 : VField twoShape.size) (-(-vecOf m)) := by
    rw [neg_neg]; exact hsol
  let c0 : Cell twoShape := fun a => ⟨0, by match a with | 0 => decide | 1 => decide | 2 => decide⟩
  have k1 := h twoShape 1 one_ne_zero unitDxes _ _ (fun _ => one_ne_zero) A T B hA hT hB _ _ _ hsol (1, pos c0)
  have k2 := m2j_equivalent_partial 1 one_ne_zero unitDxes _ _ (fun _ => one_ne_zero) 0 0 A T B hA hT hB _ _ _ hsol'
    (1, pos c0)
  rw [k1, Matrix.mulVec_neg, Pi.neg_apply] at k2
  have hz : (T *ᵥ vecOf m) (1, pos c0) = 0 := by
    have hI := Complex.I_ne_zero
    have : Complex.I * (2 * (T *ᵥ vecOf m) (1, pos c0)) = 0 := by linear_combination -k2
    rcases mul_eq_zero.1 this with h | h
    · exact absurd h hI
    · rcases mul_eq_zero.1 h with h | h
      · exact absurd h two_ne_zero
      · exact h
  simp only [m2j, hch, Option.map_some, Option.some.injEq] at hT
  have hd : (Matrix.diagonal (fun _ : Fin 3 × Fin twoShape.size => (1 : ℂ) / 1)) = 1 := by
    simp
  rw [← hT, hd, Matrix.mul_one, Matrix.smul_mulVec, Pi.smul_apply] at hz
  obtain ⟨_, q1, _⟩ := curl_h_pointwise unitDxes 0 ch hch m _ (hvec m) c0
  rw [q1, two_back, two_back] at hz
  have hc : (c0 0).val = 0 := rfl
  simp [m, hc, hp0 c0 hc] at hz
  have := congrArg Complex.im hz
  norm_num at this

/-- The hypotheses of the equivalences are met: fields, sources and operators with conductors. -/
example : ∃ (A T : Mat3 twoShape.size), ∃ B,
    eFull twoShape 1 unitDxes (fun _ => 1) (some fun _ => 1) (some fun p => p.1 = 0) (some fun p => p.1 = 1) 0 0 = some A ∧
    e2h twoShape 1 unitDxes (some fun _ => 1) (some fun p => p.1 = 1) 0 0 = some T ∧
    ehFull twoShape 1 unitDxes (fun _ => 1) (some fun _ => 1) (some fun p => p.1 = 0) (some fun p => p.1 = 1) 0 0 = some B := by
  obtain ⟨⟨ce, hce⟩, ⟨ch, hch⟩⟩ := curl_defined twoShape unitDxes 0
  exact ⟨_, _, _, by simp only [eFull, hce, hch, Option.bind_some, Option.map_some]; rfl,
    by simp only [e2h, hce, Option.map_some]; rfl,
    by simp only [ehFull, hce, hch, Option.bind_some, Option.map_some]; rfl⟩

end Verif.Fdfd
