import Verif.Fdfd.Adjoint
import Verif.Fdfd.SolverProps
import Mathlib.LinearAlgebra.Matrix.NonsingularInverse
import Mathlib.LinearAlgebra.Matrix.ToLinearEquiv
/-
Property C22, the adjoint simulations that run through the complex conjugate problem
(`AdjointFdfdSimulation`, and the `adjoint` option of the MaxwellFDFD client).
-/
namespace Verif.Fdfd
open Matrix
variable {sh : Shape}

/-! ### Specification -/

/-- An exact solver of the wave equation: it returns a solution whenever there is one. -/
def ExactForward (sh : Shape)
    (solve : ℂ → Dxes → VField sh.size → Option (VField sh.size) → VField sh.size → VField sh.size) : Prop :=
  ∀ omega d eps mu J A, eFull sh omega d eps mu none none 0 0 = some A →
    (∃ x, A *ᵥ x = (-Complex.I * omega) • J) → A *ᵥ solve omega d eps mu J = (-Complex.I * omega) • J

/-- What the adjoint simulation is asked for. -/
def IsAdjointSolution (A : Mat3 sh.size) (omega : ℂ) (J x : VField sh.size) : Prop :=
  Aᴴ *ᵥ x = (-Complex.I * star omega) • J

/-! ### Lemmas -/

theorem map_star_mul {n : Nat} (A B : Mat3 n) : (A * B).map star = A.map star * B.map star := by
  have := Matrix.map_mul (L := A) (M := B) (f := starRingEnd ℂ)
  exact this

theorem map_star_diagonal {n : Nat} (v : VField n) :
    (Matrix.diagonal v).map star = Matrix.diagonal (fun p => star (v p)) := by
  rw [Matrix.diagonal_map (star_zero ℂ)]

theorem derivM_star (w : Nat → ℂ) (a : Fin 3) (s : Int) :
    (derivM sh w a s 0).map star = derivM sh (fun i => star (w i)) a s 0 := by
  apply mat_ext
  intro c c'
  rw [Matrix.map_apply, derivM_apply, derivM_apply, star_mul', star_sub]
  congr 2 <;> split <;> simp

theorem cross_star (B : Fin 3 → Mat sh.size) : (cross B).map star = cross (fun a => (B a).map star) := by
  ext ⟨a, i⟩ ⟨b, j⟩
  match a, b with
  | 0, 0 => exact star_zero ℂ
  | 0, 1 => exact star_neg _
  | 0, 2 => rfl
  | 1, 0 => rfl
  | 1, 1 => exact star_zero ℂ
  | 1, 2 => exact star_neg _
  | 2, 0 => exact star_neg _
  | 2, 1 => rfl
  | 2, 2 => exact star_zero ℂ

theorem curlE_conj (d : Dxes) : curlE sh d.conj 0 0 = (curlE sh d 0 0).map (fun C => C.map star) := by
  rw [curlE, curlE, derivForward_zero, derivForward_zero]
  simp only [Option.map_some, axisPhase_zero, cross_star, derivM_star, Dxes.conj, star_div₀, star_one]

theorem curlH_conj (d : Dxes) : curlH sh d.conj 0 0 = (curlH sh d 0 0).map (fun C => C.map star) := by
  rw [curlH, curlH, derivBack_zero, derivBack_zero]
  simp only [Option.map_some, axisPhase_zero, cross_star, derivM_star, Dxes.conj, star_div₀, star_one, star_neg]

/-- Conjugating all the coefficients conjugates the operator. -/
theorem eFull_conj (omega : ℂ) (d : Dxes) (eps : VField sh.size) (mu : Option (VField sh.size)) (A : Mat3 sh.size)
    (hA : eFull sh omega d eps mu none none 0 0 = some A) :
    eFull sh (star omega) d.conj (fun p => star (eps p)) (mu.map fun m p => star (m p)) none none 0 0 =
      some (A.map star) := by
  obtain ⟨⟨ce, hce⟩, ⟨ch, hch⟩⟩ := curl_defined sh d 0
  rw [eFull, hce, hch] at hA
  rw [eFull, curlE_conj, curlH_conj, hce, hch]
  simp only [Option.bind_some, Option.map_some, Option.some.injEq, maskMat, Matrix.mul_one, Matrix.one_mul] at hA ⊢
  subst hA
  have hm : invMat (mu.map fun m p => star (m p)) = (invMat mu).map star := by
    cases mu with
    | none =>
      show (1 : Mat3 sh.size) = (1 : Mat3 sh.size).map star
      rw [Matrix.map_one _ (star_zero ℂ) (star_one ℂ)]
    | some m =>
      show Matrix.diagonal (fun p => 1 / star (m p)) = (Matrix.diagonal (fun p => 1 / m p)).map star
      rw [map_star_diagonal]
      congr 1; funext p
      rw [star_div₀, star_one]
  have hs : ∀ M N : Mat3 sh.size, (M - N).map star = M.map star - N.map star := by
    intro M N; ext p q; exact star_sub _ _
  have hsm : ∀ (a : ℂ) (M : Mat3 sh.size), (a • M).map star = star a • M.map star := by
    intro a M; ext p q; exact star_mul' _ _
  rw [hs, hsm, map_star_mul, map_star_mul, map_star_diagonal, hm, star_pow]

theorem pSquared_conj (d : Dxes) (p : Fin 3 × Fin sh.size) : pSquared sh d.conj p = star (pSquared sh d p) := by
  obtain ⟨a, i⟩ := p
  rw [← pos_cellAt i, pSquared_apply, pSquared_apply, star_prod]
  apply Finset.prod_congr rfl
  intro b _
  split <;> rfl

/-! ### Theorems -/

/-- The factor by which the route through the conjugate problem is off: `conj(s) / s` for the cell "areas" `s`. -/
noncomputable def offFactor (sh : Shape) (d : Dxes) : VField sh.size := fun p =>
  star (pSquared sh d p) / pSquared sh d p

/-- What the conjugate route computes: the adjoint system is solved after scaling source and result with `conj(s)/s`. -/
theorem conjugate_adjoint_scaled
    (solve : ℂ → Dxes → VField sh.size → Option (VField sh.size) → VField sh.size → VField sh.size)
    (hs : ExactForward sh solve) (omega : ℂ) (d : Dxes) (hd : NonzeroGrid sh d) (eps : VField sh.size)
    (mu : Option (VField sh.size)) (J : VField sh.size) (A : Mat3 sh.size)
    (hA : eFull sh omega d eps mu none none 0 0 = some A) (hu : IsUnit A.det) :
    IsAdjointSolution A omega (fun p => offFactor sh d p * J p)
      (fun p => offFactor sh d p * conjugateAdjoint sh solve omega d eps mu J p) := by
  have hA' := eFull_conj omega d eps mu A hA
  have hP0 : ∀ p, pSquared sh d p ≠ 0 :=
    pSquared_ne d (fun a i h => (hd a i h).1) (fun a i h => (hd a i h).2)
  have hsym := weighted_symmetric omega d eps mu none none hd A hA
  set P := pSquared sh d with hPdef
  set newJ : VField sh.size := fun p => J p / P p with hJ
  have hu' : IsUnit (A.map star).det := by
    have h1 : (A.map star) = (Aᴴ)ᵀ := rfl
    rw [h1, Matrix.det_transpose, Matrix.det_conjTranspose]
    exact hu.star
  have hy := hs _ _ _ _ newJ _ hA' ⟨(A.map star)⁻¹ *ᵥ ((-Complex.I * star omega) • newJ), by
    rw [Matrix.mulVec_mulVec, Matrix.mul_nonsing_inv _ hu', Matrix.one_mulVec]⟩
  set y := solve (star omega) d.conj (fun p => star (eps p)) (mu.map fun m p => star (m p)) newJ with hyd
  have hres : conjugateAdjoint sh solve omega d eps mu J = fun p => y p * P p := by
    unfold conjugateAdjoint
    simp only [pSquared_conj, star_star]
    rfl
  -- conjugated symmetry
  have hadj : Aᴴ * Matrix.diagonal (fun p => star (P p)) = Matrix.diagonal (fun p => star (P p)) * A.map star := by
    have h1 := congrArg (fun M : Mat3 sh.size => M.map star) hsym
    simp only [map_star_mul, map_star_diagonal] at h1
    rw [← h1, Matrix.transpose_mul, Matrix.diagonal_transpose]
    rw [map_star_mul, map_star_diagonal]
    rfl
  have hx : (fun p => offFactor sh d p * conjugateAdjoint sh solve omega d eps mu J p) =
      Matrix.diagonal (fun p => star (P p)) *ᵥ y := by
    funext p
    rw [hres, Matrix.mulVec_diagonal, offFactor]
    show star (P p) / P p * (y p * P p) = _
    have := hP0 p
    field_simp
  show Aᴴ *ᵥ _ = _
  rw [hx, Matrix.mulVec_mulVec, hadj, ← Matrix.mulVec_mulVec, hy]
  funext p
  rw [Matrix.mulVec_diagonal, Pi.smul_apply, Pi.smul_apply, smul_eq_mul, smul_eq_mul, offFactor]
  show star (P p) * (-Complex.I * star omega * (J p / P p)) = -Complex.I * star omega * (star (P p) / P p * J p)
  ring

/-- C22 on a real grid (no absorbing layers): the conjugate route solves the adjoint problem. -/
theorem conjugate_adjoint_real_grid
    (solve : ℂ → Dxes → VField sh.size → Option (VField sh.size) → VField sh.size → VField sh.size)
    (hs : ExactForward sh solve) (omega : ℂ) (d : Dxes) (hd : NonzeroGrid sh d)
    (hr : ∀ a i, i < sh a → (d.e a i).im = 0 ∧ (d.h a i).im = 0) (eps : VField sh.size)
    (mu : Option (VField sh.size)) (J : VField sh.size) (A : Mat3 sh.size)
    (hA : eFull sh omega d eps mu none none 0 0 = some A) (hu : IsUnit A.det) :
    IsAdjointSolution A omega J (conjugateAdjoint sh solve omega d eps mu J) := by
  have h := conjugate_adjoint_scaled solve hs omega d hd eps mu J A hA hu
  have h1 : ∀ p, offFactor sh d p = 1 := by
    intro p
    have h0 : pSquared sh d p ≠ 0 :=
      pSquared_ne d (fun a i h => (hd a i h).1) (fun a i h => (hd a i h).2) p
    rw [offFactor]
    have : star (pSquared sh d p) = pSquared sh d p := by
      obtain ⟨a, i⟩ := p
      rw [← pos_cellAt i, pSquared_apply, star_prod]
      apply Finset.prod_congr rfl
      intro b _
      have := hr b _ (cellAt i b).isLt
      split
      · exact Complex.conj_eq_iff_im.2 this.1
      · exact Complex.conj_eq_iff_im.2 this.2
    rw [this, div_self h0]
  simpa [h1] using h

/-- C22 with absorbing layers, in part: if the source vanishes wherever the cell area is not real (in the layers),
the result agrees with an adjoint solution at all the other cells. In the layers it is off by `conj(s)/s`. -/
theorem conjugate_adjoint_partial
    (solve : ℂ → Dxes → VField sh.size → Option (VField sh.size) → VField sh.size → VField sh.size)
    (hs : ExactForward sh solve) (omega : ℂ) (d : Dxes) (hd : NonzeroGrid sh d) (eps : VField sh.size)
    (mu : Option (VField sh.size)) (J : VField sh.size) (A : Mat3 sh.size)
    (hA : eFull sh omega d eps mu none none 0 0 = some A) (hu : IsUnit A.det)
    (hJ : ∀ p, (pSquared sh d p).im ≠ 0 → J p = 0) :
    ∃ x0, IsAdjointSolution A omega J x0 ∧
      ∀ p, (pSquared sh d p).im = 0 → conjugateAdjoint sh solve omega d eps mu J p = x0 p := by
  have h := conjugate_adjoint_scaled solve hs omega d hd eps mu J A hA hu
  have h0 : ∀ p, pSquared sh d p ≠ 0 :=
    pSquared_ne d (fun a i h => (hd a i h).1) (fun a i h => (hd a i h).2)
  have h1 : ∀ p, (pSquared sh d p).im = 0 → offFactor sh d p = 1 := by
    intro p hp
    rw [offFactor]
    have : star (pSquared sh d p) = pSquared sh d p := Complex.conj_eq_iff_im.2 hp
    rw [this, div_self (h0 p)]
  refine ⟨fun p => offFactor sh d p * conjugateAdjoint sh solve omega d eps mu J p, ?_, fun p hp => by
    show _ = offFactor sh d p * _
    rw [h1 p hp, one_mul]⟩
  have hJ' : (fun p => offFactor sh d p * J p) = J := by
    funext p
    by_cases hp : (pSquared sh d p).im = 0
    · rw [h1 p hp, one_mul]
    · rw [hJ p hp, mul_zero]
  rw [hJ'] at h
  exact h

/-! ### The conjugate route is wrong in absorbing layers -/

/-- Two cells along x, with unequal phases of the dual widths. -/
noncomputable def badGrid : Dxes := ⟨fun _ _ => 1, fun a i => if a = 0 ∧ i = 1 then Complex.I else 1⟩

def badShape : Shape := ![2, 1, 1]

def cell0 : Cell badShape := fun a => match a with
  | 0 => (0 : Fin 2)
  | 1 => (0 : Fin 1)
  | 2 => (0 : Fin 1)

def cell1 : Cell badShape := fun a => match a with
  | 0 => (1 : Fin 2)
  | 1 => (0 : Fin 1)
  | 2 => (0 : Fin 1)

theorem bad_cells (c : Cell badShape) : c = cell0 ∨ c = cell1 := by
  have h : ∀ x : Fin 2, x = 0 ∨ x = 1 := by decide
  have h1 : ∀ x : Fin 1, x = 0 := by decide
  rcases h (c 0) with h0 | h0
  · left
    funext a
    match a with
    | 0 => exact h0
    | 1 => exact h1 _
    | 2 => exact h1 _
  · right
    funext a
    match a with
    | 0 => exact h0
    | 1 => exact h1 _
    | 2 => exact h1 _

theorem cell_ne : cell0 ≠ cell1 := fun h => absurd (congrFun h 0) (by decide)

theorem bad_moves : nextCell 0 cell0 = cell1 ∧ nextCell 0 cell1 = cell0 ∧ prevCell 0 cell0 = cell1 ∧
    prevCell 0 cell1 = cell0 ∧ (∀ c : Cell badShape, nextCell 1 c = c ∧ nextCell 2 c = c ∧ prevCell 1 c = c ∧
      prevCell 2 c = c) := by
  refine ⟨?_, ?_, ?_, ?_, ?_⟩
  all_goals first
    | (funext a; match a with
        | 0 => rfl
        | 1 => rfl
        | 2 => rfl)
    | skip
  intro c
  rcases bad_cells c with rfl | rfl <;> refine ⟨?_, ?_, ?_, ?_⟩ <;>
  · funext a; match a with
        | 0 => rfl
        | 1 => rfl
        | 2 => rfl

/-- The permittivity of the counterexample: chosen such that the column below has a single entry. -/
noncomputable def badEps : VField badShape.size := fun p => if p = (1, pos cell0) then 2 else 1

theorem bad_apply (A : Mat3 badShape.size) (hA : eFull badShape 1 badGrid badEps none none none 0 0 = some A)
    (x : VField badShape.size) :
    (∀ c, (A *ᵥ x) (0, pos c) = -x (0, pos c)) ∧
    (A *ᵥ x) (1, pos cell0) = -2 * x (1, pos cell1) ∧
    (A *ᵥ x) (1, pos cell1) = 2 * Complex.I * x (1, pos cell0) - (1 + 2 * Complex.I) * x (1, pos cell1) ∧
    (A *ᵥ x) (2, pos cell0) = x (2, pos cell0) - 2 * x (2, pos cell1) ∧
    (A *ᵥ x) (2, pos cell1) = 2 * Complex.I * x (2, pos cell0) - (1 + 2 * Complex.I) * x (2, pos cell1) := by
  obtain ⟨⟨ce, hce⟩, ⟨ch, hch⟩⟩ := curl_defined badShape badGrid 0
  rw [eFull, hce, hch] at hA
  simp only [Option.bind_some, Option.map_some, Option.some.injEq, maskMat, invMat, Matrix.mul_one,
    Matrix.one_mul] at hA
  subst hA
  obtain ⟨m1, m2, m3, m4, m5⟩ := bad_moves
  have up : ∀ a c, upPhase (sh := badShape) badGrid.e 0 a c = 1 := by intro a c; simp [upPhase]
  have down : ∀ a c, downPhase (sh := badShape) badGrid.h 0 a c = 1 := by intro a c; simp [downPhase]
  have he1 : ∀ a i, badGrid.e a i = 1 := fun _ _ => rfl
  have hh0 : badGrid.h 0 (cell0 0) = 1 := by
    have : (cell0 0).val = 0 := rfl
    simp [badGrid, this]
  have hh1 : badGrid.h 0 (cell1 0) = Complex.I := by
    have : (cell1 0).val = 1 := rfl
    simp [badGrid, this]
  let e : FieldT badShape := fun a c => x (a, pos c)
  have H := curl_e_pointwise badGrid 0 ce hce e x (fun _ _ => rfl)
  let h : FieldT badShape := fun a c => (ce *ᵥ x) (a, pos c)
  have G := curl_h_pointwise badGrid 0 ch hch h (ce *ᵥ x) (fun _ _ => rfl)
  have h1e : ∀ c, h 1 c = -(x (2, pos (nextCell 0 c)) - x (2, pos c)) := by
    intro c
    show (ce *ᵥ x) (1, pos c) = _
    rw [(H c).2.1]
    simp [fwdDiff, up, e, (m5 c).2.1, he1]
  have h2e : ∀ c, h 2 c = x (1, pos (nextCell 0 c)) - x (1, pos c) := by
    intro c
    show (ce *ᵥ x) (2, pos c) = _
    rw [(H c).2.2]
    simp [fwdDiff, up, e, (m5 c).1, he1]
  have hap : ∀ p, ((ch * ce - (1 : ℂ) ^ 2 • Matrix.diagonal badEps) *ᵥ x) p =
      (ch *ᵥ (ce *ᵥ x)) p - badEps p * x p := by
    intro p
    rw [Matrix.sub_mulVec, ← Matrix.mulVec_mulVec, Pi.sub_apply, one_pow, one_smul, Matrix.mulVec_diagonal]
  have ne : (1, pos cell1) ≠ ((1, pos cell0) : Fin 3 × Fin badShape.size) := by
    intro hc
    exact cell_ne (pos_inj.1 (Prod.mk.inj hc).2).symm
  have e0 : ∀ c, badEps (0, pos c) = 1 := fun c => if_neg (fun hc => absurd (Prod.mk.inj hc).1 (by decide))
  have e2 : ∀ c, badEps (2, pos c) = 1 := fun c => if_neg (fun hc => absurd (Prod.mk.inj hc).1 (by decide))
  have e10 : badEps (1, pos cell0) = 2 := if_pos rfl
  have e11 : badEps (1, pos cell1) = 1 := if_neg ne
  refine ⟨fun c => ?_, ?_, ?_, ?_, ?_⟩
  · rw [hap, (G c).1, e0]
    simp [backDiff, down, (m5 c).2.2.1, (m5 c).2.2.2]
  · rw [hap, (G cell0).2.1, e10]
    simp only [backDiff, down, (m5 cell0).2.2.2, h2e, hh0, m1, m2, m3]
    ring
  · rw [hap, (G cell1).2.1, e11]
    simp only [backDiff, down, (m5 cell1).2.2.2, h2e, hh1, m1, m2, m4, Complex.div_I]
    ring
  · rw [hap, (G cell0).2.2, e2]
    simp only [backDiff, down, (m5 cell0).2.2.1, h1e, hh0, m1, m2, m3]
    ring
  · rw [hap, (G cell1).2.2, e2]
    simp only [backDiff, down, (m5 cell1).2.2.1, h1e, hh1, m1, m2, m4, Complex.div_I]
    ring

theorem bad_unit (A : Mat3 badShape.size) (hA : eFull badShape 1 badGrid badEps none none none 0 0 = some A) :
    IsUnit A.det := by
  rw [isUnit_iff_ne_zero]
  intro h0
  obtain ⟨x, hx, hz⟩ := Matrix.exists_mulVec_eq_zero_iff.2 h0
  obtain ⟨h1, h2, h3, h4, h5⟩ := bad_apply A hA x
  simp only [hz, Pi.zero_apply] at h1 h2 h3 h4 h5
  have x11 : x (1, pos cell1) = 0 := by linear_combination (1 / 2 : ℂ) * h2
  have x10 : x (1, pos cell0) = 0 := by
    rw [x11] at h3
    linear_combination (Complex.I / 2) * h3 + x (1, pos cell0) * Complex.I_sq
  have x21 : x (2, pos cell1) = 0 := by
    have h6 : (-1 + 2 * Complex.I) * x (2, pos cell1) = 0 := by
      linear_combination 2 * Complex.I * h4 - h5
    rcases mul_eq_zero.1 h6 with h7 | h7
    · have := congrArg Complex.re h7
      simp at this
    · exact h7
  have x20 : x (2, pos cell0) = 0 := by linear_combination -h4 + 2 * x21
  apply hx
  funext p
  obtain ⟨a, i⟩ := p
  obtain ⟨c, rfl⟩ : ∃ c, i = pos c := ⟨cellAt i, (pos_cellAt i).symm⟩
  rcases bad_cells c with rfl | rfl <;>
  · match a with
    | 0 => simpa using h1 _
    | 1 => assumption
    | 2 => assumption

/-- C22 fails for the conjugate route when the source and the cells of interest lie in absorbing layers. -/
theorem conjugate_adjoint_false :
    ¬ ∀ (sh : Shape)
      (solve : ℂ → Dxes → VField sh.size → Option (VField sh.size) → VField sh.size → VField sh.size),
      ExactForward sh solve → ∀ (omega : ℂ) (d : Dxes), NonzeroGrid sh d → ∀ (eps : VField sh.size)
      (mu : Option (VField sh.size)) (J : VField sh.size) (A : Mat3 sh.size),
      eFull sh omega d eps mu none none 0 0 = some A → IsUnit A.det →
      IsAdjointSolution A omega J (conjugateAdjoint sh solve omega d eps mu J) := by
  intro hall
  classical
  obtain ⟨A, hA⟩ := eFull_defined badShape 1 badGrid badEps none none none 0
  have hu := bad_unit A hA
  have hd : NonzeroGrid badShape badGrid := by
    intro a i _
    refine ⟨one_ne_zero, ?_⟩
    show (if a = 0 ∧ i = 1 then Complex.I else 1) ≠ 0
    split
    · exact Complex.I_ne_zero
    · exact one_ne_zero
  obtain ⟨solve, hs⟩ : ∃ solve, ExactForward badShape solve := by
    refine ⟨fun omega d eps mu J => if h : ∃ x, ∃ A, eFull badShape omega d eps mu none none 0 0 = some A ∧
        A *ᵥ x = (-Complex.I * omega) • J then h.choose else 0, ?_⟩
    intro omega d eps mu J A hA ⟨x, hx⟩
    have h : ∃ x, ∃ A, eFull badShape omega d eps mu none none 0 0 = some A ∧
        A *ᵥ x = (-Complex.I * omega) • J := ⟨x, A, hA, hx⟩
    simp only [dif_pos h]
    obtain ⟨A', h1, h2⟩ := h.choose_spec
    rw [hA] at h1
    cases h1
    exact h2
  let J : VField badShape.size := Pi.single (1, pos cell0) 1
  have g1 := hall badShape solve hs 1 badGrid hd badEps none J A hA hu
  have g2 := conjugate_adjoint_scaled solve hs 1 badGrid hd badEps none J A hA hu
  set x := conjugateAdjoint badShape solve 1 badGrid badEps none J with hx
  -- the row of the adjoint at (y, cell 0)
  have row : ∀ v : VField badShape.size, (Aᴴ *ᵥ v) (1, pos cell0) = -2 * Complex.I * v (1, pos cell1) := by
    intro v
    let T : VField badShape.size := Pi.single (1, pos cell0) 1
    have hcol : ∀ q, A q (1, pos cell0) = (A *ᵥ T) q := fun q => by
      rw [Matrix.mulVec_single_one]; rfl
    obtain ⟨h1, h2, h3, h4, h5⟩ := bad_apply A hA T
    have T0 : ∀ a c, ¬ (a = 1 ∧ c = cell0) → T (a, pos c) = 0 := by
      intro a c hac
      show (Pi.single (1, pos cell0) (1 : ℂ) : VField badShape.size) (a, pos c) = 0
      rw [Pi.single_apply, if_neg]
      intro hc
      exact hac ⟨(Prod.mk.inj hc).1, pos_inj.1 (Prod.mk.inj hc).2⟩
    have T1 : T (1, pos cell0) = 1 := Pi.single_eq_same _ _
    have hz : ∀ q, q ≠ (1, pos cell1) → A q (1, pos cell0) = 0 := by
      intro q hq
      rw [hcol]
      obtain ⟨a, i⟩ := q
      obtain ⟨c, rfl⟩ : ∃ c, i = pos c := ⟨cellAt i, (pos_cellAt i).symm⟩
      match a with
      | 0 => rw [h1, T0 0 c (by simp), neg_zero]
      | 1 =>
        rcases bad_cells c with rfl | rfl
        · rw [h2, T0 1 cell1 (fun hc => cell_ne hc.2.symm), mul_zero]
        · exact absurd rfl hq
      | 2 =>
        rcases bad_cells c with rfl | rfl
        · rw [h4, T0 2 _ (by simp), T0 2 _ (by simp)]; ring
        · rw [h5, T0 2 _ (by simp), T0 2 _ (by simp)]; ring
    have ho : A (1, pos cell1) (1, pos cell0) = 2 * Complex.I := by
      rw [hcol, h3, T1, T0 1 cell1 (fun hc => cell_ne hc.2.symm)]; ring
    show ∑ q, star (A q (1, pos cell0)) * v q = _
    rw [Finset.sum_eq_single (1, pos cell1)]
    · rw [ho]
      simp
    · intro q _ hq
      rw [hz q hq, star_zero, zero_mul]
    · intro hq
      exact absurd (Finset.mem_univ _) hq
  have k1 := congrFun g1 (1, pos cell0)
  have k2 := congrFun g2 (1, pos cell0)
  rw [row] at k1 k2
  have P0 : offFactor badShape badGrid (1, pos cell0) = 1 := by
    have : pSquared badShape badGrid (1, pos cell0) = 1 := by
      have h0 : (cell0 0).val = 0 := rfl
      rw [pSquared_apply, Fin.prod_univ_three]
      simp [badGrid, h0]
    rw [offFactor, this]; simp
  have P1 : offFactor badShape badGrid (1, pos cell1) = -1 := by
    have : pSquared badShape badGrid (1, pos cell1) = Complex.I := by
      have h0 : (cell1 0).val = 1 := rfl
      rw [pSquared_apply, Fin.prod_univ_three]
      simp [badGrid, h0]
    rw [offFactor, this]
    simp [Complex.I_ne_zero]
  have J0 : J (1, pos cell0) = 1 := Pi.single_eq_same _ _
  simp only [P0, P1, Pi.smul_apply, smul_eq_mul, J0] at k1 k2
  have : (-Complex.I * star (1 : ℂ) * 1 : ℂ) = 0 := by linear_combination (-1 / 2 : ℂ) * k1 + (-1 / 2 : ℂ) * k2
  simp [Complex.I_ne_zero] at this

end Verif.Fdfd
