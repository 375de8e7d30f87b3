import Verif.Fdfd.Symm
/-
Property C20: the preconditioned wave operator is symmetric.
-/
namespace Verif.Fdfd
open Matrix
variable {sh : Shape}

/-- All cell widths are non-zero. -/
def NonzeroGrid (sh : Shape) (d : Dxes) : Prop :=
  ∀ a i, i < sh a → d.e a i ≠ 0 ∧ d.h a i ≠ 0

theorem congruence_symm {ι : Type} [Fintype ι] (F C M S : Matrix ι ι ℂ) (hF : Fᵀ = F) (hM : Mᵀ = M)
    (hS : Sᵀ = S) : (F * (Cᵀ * M * C - S) * F)ᵀ = F * (Cᵀ * M * C - S) * F := by
  simp only [Matrix.transpose_mul, Matrix.transpose_sub, Matrix.transpose_transpose, hF, hM, hS,
    Matrix.mul_assoc]

/-- `e_full` is symmetric in the inner product weighted with `p_squared`. -/
theorem weighted_symmetric (omega : ℂ) (d : Dxes) (eps : VField sh.size)
    (mu : Option (VField sh.size)) (pec pmc : Option (Fin 3 × Fin sh.size → Bool))
    (hd : NonzeroGrid sh d) (A : Mat3 sh.size) (hA : eFull sh omega d eps mu pec pmc 0 0 = some A) :
    (Matrix.diagonal (pSquared sh d) * A)ᵀ = Matrix.diagonal (pSquared sh d) * A := by
  have he : ∀ a i, i < sh a → d.e a i ≠ 0 := fun a i h => (hd a i h).1
  have hh : ∀ a i, i < sh a → d.h a i ≠ 0 := fun a i h => (hd a i h).2
  obtain ⟨⟨ce, hce⟩, ⟨ch, hch⟩⟩ := curl_defined sh d 0
  have hadj := curl_adjoint d he hh ce ch hce hch
  rw [eFull, hce, hch] at hA
  simp only [Option.bind_some, Option.map_some, Option.some.injEq] at hA
  obtain ⟨fe, hfe⟩ := maskMat_diag pec
  obtain ⟨fm, hfm⟩ := maskMat_diag pmc
  obtain ⟨fi, hfi⟩ := invMat_diag mu
  rw [hfe, hfm, hfi] at hA
  set P := pSquared sh d with hPdef
  have h1 : Matrix.diagonal P * A = Matrix.diagonal fe *
      (ceᵀ * Matrix.diagonal (dualVol sh d) * (Matrix.diagonal fm * Matrix.diagonal fi) * ce -
        omega ^ 2 • (Matrix.diagonal P * Matrix.diagonal eps)) * Matrix.diagonal fe := by
    rw [← hadj, ← hA]
    have hc : (Matrix.diagonal P : Mat3 sh.size) * Matrix.diagonal fe =
        Matrix.diagonal fe * Matrix.diagonal P := by
      rw [Matrix.diagonal_mul_diagonal, Matrix.diagonal_mul_diagonal]
      congr 1; funext q; exact mul_comm _ _
    simp only [← Matrix.mul_assoc]
    rw [hc]
    simp only [Matrix.mul_assoc, Matrix.sub_mul, Matrix.mul_sub, Matrix.mul_smul, Matrix.smul_mul]
  rw [h1, Matrix.mul_assoc ceᵀ]
  simp only [Matrix.diagonal_mul_diagonal]
  exact congruence_symm _ _ _ _ (Matrix.diagonal_transpose _) (Matrix.diagonal_transpose _)
    (by rw [Matrix.transpose_smul, Matrix.diagonal_transpose])

/-- C20: `Pl @ e_full @ Pr` is a symmetric matrix, for every grid with non-zero complex cell widths,
every frequency, permittivity, permeability, PEC and PMC mask, without Bloch phase. -/
theorem preconditioned_symmetric (omega : ℂ) (d : Dxes) (eps : VField sh.size)
    (mu : Option (VField sh.size)) (pec pmc : Option (Fin 3 × Fin sh.size → Bool))
    (hd : NonzeroGrid sh d) (A Pl Pr : Mat3 sh.size)
    (hA : eFull sh omega d eps mu pec pmc 0 0 = some A)
    (hP : eFullPreconditioners sh d = (Pl, Pr)) : (Pl * A * Pr)ᵀ = Pl * A * Pr := by
  have he : ∀ a i, i < sh a → d.e a i ≠ 0 := fun a i h => (hd a i h).1
  have hh : ∀ a i, i < sh a → d.h a i ≠ 0 := fun a i h => (hd a i h).2
  have hsym := weighted_symmetric omega d eps mu pec pmc hd A hA
  rw [eFullPreconditioners, Prod.mk.injEq] at hP
  obtain ⟨rfl, rfl⟩ := hP
  set P := pSquared sh d with hPdef
  set R : Mat3 sh.size := Matrix.diagonal (fun q => 1 / npSqrt (P q)) with hR
  have hl : (Matrix.diagonal (fun q => npSqrt (P q)) : Mat3 sh.size) = R * Matrix.diagonal P := by
    rw [hR, Matrix.diagonal_mul_diagonal]
    congr 1
    funext q
    have h1 := npSqrt_ne (pSquared_ne d he hh q)
    have h2 := npSqrt_sq (P q)
    rw [one_div, eq_inv_mul_iff_mul_eq₀ h1, h2]
  rw [hl, Matrix.mul_assoc R]
  rw [Matrix.transpose_mul, Matrix.transpose_mul, hsym, hR, Matrix.diagonal_transpose]
  simp only [Matrix.mul_assoc]

/-- Entry by entry. -/
theorem preconditioned_symmetric_entries (omega : ℂ) (d : Dxes) (eps : VField sh.size)
    (mu : Option (VField sh.size)) (pec pmc : Option (Fin 3 × Fin sh.size → Bool))
    (hd : NonzeroGrid sh d) (A Pl Pr : Mat3 sh.size)
    (hA : eFull sh omega d eps mu pec pmc 0 0 = some A)
    (hP : eFullPreconditioners sh d = (Pl, Pr)) (p q : Fin 3 × Fin sh.size) :
    (Pl * A * Pr) p q = (Pl * A * Pr) q p :=
  congrFun (congrFun (preconditioned_symmetric omega d eps mu pec pmc hd A Pl Pr hA hP).symm p) q

/-- The right preconditioner is the inverse of the left one. -/
theorem preconditioners_inverse (d : Dxes) (hd : NonzeroGrid sh d) (Pl Pr : Mat3 sh.size)
    (hP : eFullPreconditioners sh d = (Pl, Pr)) : Pl * Pr = 1 ∧ Pr * Pl = 1 := by
  have he : ∀ a i, i < sh a → d.e a i ≠ 0 := fun a i h => (hd a i h).1
  have hh : ∀ a i, i < sh a → d.h a i ≠ 0 := fun a i h => (hd a i h).2
  rw [eFullPreconditioners, Prod.mk.injEq] at hP
  obtain ⟨rfl, rfl⟩ := hP
  rw [Matrix.diagonal_mul_diagonal, Matrix.diagonal_mul_diagonal, ← Matrix.diagonal_one]
  constructor
  · congr 1; funext q; exact mul_one_div_cancel (npSqrt_ne (pSquared_ne d he hh q))
  · congr 1; funext q; exact one_div_mul_cancel (npSqrt_ne (pSquared_ne d he hh q))

/-- `e_full` exists on every grid without orthogonal shifts. -/
theorem eFull_defined (sh : Shape) (omega : ℂ) (d : Dxes) (eps : VField sh.size)
    (mu : Option (VField sh.size)) (pec pmc : Option (Fin 3 × Fin sh.size → Bool)) (k : Fin 3 → ℂ) :
    ∃ A, eFull sh omega d eps mu pec pmc k 0 = some A := by
  obtain ⟨⟨ce, hce⟩, ⟨ch, hch⟩⟩ := curl_defined sh d k
  rw [eFull, hce, hch]; exact ⟨_, rfl⟩

/-- A grid with complex, unequal widths. -/
example : NonzeroGrid ![3, 2, 1] ⟨fun _ i => 1 + i + Complex.I, fun _ i => 2 + i⟩ := by
  intro a i _
  constructor
  · intro h
    have := congrArg Complex.im h
    simp at this
  · intro h
    have := congrArg Complex.re h
    simp at this
    have h2 : (0 : ℝ) ≤ i := Nat.cast_nonneg i
    linarith

end Verif.Fdfd
