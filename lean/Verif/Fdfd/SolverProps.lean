import Verif.Fdfd.Solver
import Verif.Fdfd.SymmProps
import Verif.Fdfd.GridProps
/-
Property C21: the solvers return solutions of the wave equation `e_full E = -i ω J` (with `adjoint`, of
`e_fullᴴ E = -i ω J`) whenever the inner matrix solver solves the system it is given.
-/
namespace Verif.Fdfd
open Matrix
variable {sh : Shape}

/-- The inner solver finds a solution of every system that has one. -/
def Exact {n : Nat} (solver : Mat3 n → VField n → VField n) : Prop :=
  ∀ A b, (∃ x, A *ᵥ x = b) → A *ᵥ solver A b = b

/-- The equation the user asked for. -/
def Solves {n : Nat} (A0 : Mat3 n) (omega : ℂ) (J : VField n) (adjoint : Bool) (x : VField n) : Prop :=
  (if adjoint then A0ᴴ else A0) *ᵥ x = (-Complex.I * omega) • J

theorem mulVec_cancel {n : Nat} {P Q : Mat3 n} (h : Q * P = 1) {x y : VField n} (e : P *ᵥ x = P *ᵥ y) :
    x = y := by
  have := congrArg (Q *ᵥ ·) e
  simpa [Matrix.mulVec_mulVec, h] using this

/-- For every inner solver, exact or not: the residual of the returned field is the residual the inner solver left,
up to the (invertible) preconditioner; in particular the field is a solution exactly if the inner solver
returned one. `A`, `b` is the system the inner solver was given. -/
theorem solveSystem_residual (solver : Mat3 sh.size → VField sh.size → VField sh.size) (omega : ℂ) (d : Dxes)
    (hd : NonzeroGrid sh d) (J : VField sh.size) (A0 : Mat3 sh.size) (adjoint : Bool) :
    ∃ (A Q : Mat3 sh.size) (b : VField sh.size), IsUnit Q ∧
      Q *ᵥ ((if adjoint then A0ᴴ else A0) *ᵥ solveSystem solver omega d J A0 adjoint -
        (-Complex.I * omega) • J) = A *ᵥ solver A b - b ∧
      ((∃ x, A *ᵥ x = b) ↔ ∃ x, Solves A0 omega J adjoint x) := by
  obtain ⟨⟨Pl, Pr⟩, hP⟩ : ∃ P, eFullPreconditioners sh d = P := ⟨_, rfl⟩
  obtain ⟨h1, h2⟩ := preconditioners_inverse d hd Pl Pr hP
  have h1' : Prᴴ * Plᴴ = 1 := by rw [← Matrix.conjTranspose_mul, h1, Matrix.conjTranspose_one]
  have h2' : Plᴴ * Prᴴ = 1 := by rw [← Matrix.conjTranspose_mul, h2, Matrix.conjTranspose_one]
  have uPl : IsUnit Pl := ⟨⟨Pl, Pr, h1, h2⟩, rfl⟩
  have uPr : IsUnit Prᴴ := ⟨⟨Prᴴ, Plᴴ, h1', h2'⟩, rfl⟩
  unfold solveSystem Solves
  rw [hP]
  cases adjoint with
  | true =>
    simp only [if_true]
    refine ⟨(Pl * A0 * Pr)ᴴ, Prᴴ, Prᴴ *ᵥ ((-Complex.I * omega) • J), uPr, ?_, ?_⟩
    · rw [Matrix.mulVec_sub, Matrix.mulVec_mulVec, Matrix.mulVec_mulVec, Matrix.conjTranspose_mul,
        Matrix.conjTranspose_mul, Matrix.mul_assoc]
    · constructor
      · rintro ⟨x, hx⟩
        refine ⟨Plᴴ *ᵥ x, mulVec_cancel h2' ?_⟩
        rw [← hx, Matrix.mulVec_mulVec, Matrix.mulVec_mulVec, Matrix.conjTranspose_mul,
          Matrix.conjTranspose_mul, Matrix.mul_assoc]
      · rintro ⟨x, hx⟩
        refine ⟨Prᴴ *ᵥ x, ?_⟩
        rw [← hx, Matrix.mulVec_mulVec, Matrix.mulVec_mulVec, Matrix.conjTranspose_mul,
          Matrix.conjTranspose_mul, Matrix.mul_assoc, Matrix.mul_assoc, h2', Matrix.mul_one]
  | false =>
    simp only [Bool.false_eq_true, if_false]
    refine ⟨Pl * A0 * Pr, Pl, Pl *ᵥ ((-Complex.I * omega) • J), uPl, ?_, ?_⟩
    · rw [Matrix.mulVec_sub, Matrix.mulVec_mulVec, Matrix.mulVec_mulVec, Matrix.mul_assoc]
    · constructor
      · rintro ⟨x, hx⟩
        refine ⟨Pr *ᵥ x, mulVec_cancel h2 ?_⟩
        rw [← hx, Matrix.mulVec_mulVec, Matrix.mulVec_mulVec, Matrix.mul_assoc]
      · rintro ⟨x, hx⟩
        refine ⟨Pl *ᵥ x, ?_⟩
        rw [← hx, Matrix.mulVec_mulVec, Matrix.mulVec_mulVec, Matrix.mul_assoc, Matrix.mul_assoc, h2,
          Matrix.mul_one]

theorem solveSystem_solves (solver : Mat3 sh.size → VField sh.size → VField sh.size) (hs : Exact solver)
    (omega : ℂ) (d : Dxes) (hd : NonzeroGrid sh d) (J : VField sh.size) (A0 : Mat3 sh.size) (adjoint : Bool)
    (hex : ∃ x, Solves A0 omega J adjoint x) :
    Solves A0 omega J adjoint (solveSystem solver omega d J A0 adjoint) := by
  obtain ⟨A, Q, b, ⟨u, rfl⟩, hres, hiff⟩ := solveSystem_residual solver omega d hd J A0 adjoint
  rw [hs A b (hiff.2 hex), sub_self] at hres
  have h0 : (u : Mat3 sh.size) *ᵥ ((if adjoint then A0ᴴ else A0) *ᵥ solveSystem solver omega d J A0 adjoint -
      (-Complex.I * omega) • J) = (u : Mat3 sh.size) *ᵥ 0 := by rw [hres, Matrix.mulVec_zero]
  exact sub_eq_zero.1 (mulVec_cancel (Q := ((u⁻¹ : (Mat3 sh.size)ˣ) : Mat3 sh.size)) u.inv_mul h0)

/-- C21 for `solvers.generic`. -/
theorem generic_solves (solver : Mat3 sh.size → VField sh.size → VField sh.size) (hs : Exact solver)
    (omega : ℂ) (d : Dxes) (hd : NonzeroGrid sh d) (J eps : VField sh.size) (mu : Option (VField sh.size))
    (pec pmc : Option (Fin 3 × Fin sh.size → Bool)) (adjoint : Bool) :
    ∃ A0 x0, eFull sh omega d eps mu pec pmc 0 0 = some A0 ∧
      solveGeneric sh solver omega d J eps mu pec pmc adjoint = some x0 ∧
      ((∃ x, Solves A0 omega J adjoint x) → Solves A0 omega J adjoint x0) := by
  obtain ⟨A0, hA⟩ := eFull_defined sh omega d eps mu pec pmc 0
  refine ⟨A0, _, hA, by rw [solveGeneric, hA]; rfl, fun hex => ?_⟩
  exact solveSystem_solves solver hs omega d hd J A0 adjoint hex

/-- A real grid of positive widths. -/
structure PositiveGrid (hp : GHeap) (dx : DxRef) : Prop where
  len : ∀ a, (hp.read dx.h a).length = (hp.read dx.e a).length
  e_pos : ∀ a, ∀ x ∈ hp.read dx.e a, x.im = 0 ∧ 0 < x.re
  h_pos : ∀ a, ∀ x ∈ hp.read dx.h a, x.im = 0 ∧ 0 < x.re

/-- The stretched grid has no zero widths. -/
theorem stretched_nonzero (hp : GHeap) (dx : DxRef) (pml : Pml) (omega : ℂ) (ha : Allocated hp dx)
    (hpos : PositiveGrid hp dx) (ho : 0 < omega.re)
    (hsep : ∀ a, max 0 (thickness pml a true) + max 0 (thickness pml a false) ≤ (hp.read dx.e a).length)
    {hp' : GHeap} {dx' : DxRef} (h : applyScpml hp dx pml omega = some (hp', dx')) :
    NonzeroGrid (shapeOf hp dx) (gridOf hp' dx') := by
  have hr : RealGrid hp dx := ⟨hpos.len, fun a x hx => ⟨(hpos.e_pos a x hx).1, (hpos.e_pos a x hx).2.le⟩,
    fun a x hx => ⟨(hpos.h_pos a x hx).1, (hpos.h_pos a x hx).2.le⟩⟩
  intro a i hi
  have key := pml_stretch_factor_partial hp dx pml omega ha hr ho hsep h a i
  have hne : ∀ (x : ℂ) (r : ℝ), x.im = 0 ∧ 0 < x.re → x * (1 + Complex.I * (r : ℂ)) ≠ 0 := by
    intro x r hx h0
    have := congrArg Complex.re h0
    simp [hx.1] at this
    exact absurd this (ne_of_gt hx.2)
  have hi' : i < (hp.read dx.e a).length := hi
  constructor
  · have hx := List.getElem?_eq_getElem hi'
    obtain ⟨r, _, h1⟩ := key.1 _ hx
    show (hp'.read dx'.e a).getD i 0 ≠ 0
    rw [List.getD_eq_getElem?_getD, h1, Option.getD_some]
    exact hne _ r (hpos.e_pos a _ (List.mem_of_getElem? hx))
  · have hx := List.getElem?_eq_getElem (l := hp.read dx.h a) (i := i) (by rw [hpos.len]; exact hi')
    obtain ⟨r, _, h1⟩ := key.2 _ hx
    show (hp'.read dx'.h a).getD i 0 ≠ 0
    rw [List.getD_eq_getElem?_getD, h1, Option.getD_some]
    exact hne _ r (hpos.h_pos a _ (List.mem_of_getElem? hx))

/-- C21 for `LocalMatrixSolver.solve`: for a real grid and absorbing layers that do not overlap, `solve` returns a
field, and if the wave equation on the stretched grid has a solution then the field is one. -/
theorem local_solves (hp : GHeap) (dx : DxRef)
    (solver : Mat3 (shapeOf hp dx).size → VField (shapeOf hp dx).size → VField (shapeOf hp dx).size)
    (hs : Exact solver) (omega : ℂ) (J eps : VField (shapeOf hp dx).size) (pml : Pml)
    (mu : Option (VField (shapeOf hp dx).size)) (pec pmc : Option (Fin 3 × Fin (shapeOf hp dx).size → Bool))
    (bloch : Option (Fin 3 → ℂ)) (adjoint : Bool) (ha : Allocated hp dx) (hpos : PositiveGrid hp dx)
    (ho : 0 < omega.re)
    (hsep : ∀ a, max 0 (thickness pml a true) + max 0 (thickness pml a false) ≤ (hp.read dx.e a).length) :
    ∃ hp' dx' A0 x0, applyScpml hp dx pml omega = some (hp', dx') ∧
      eFull (shapeOf hp dx) omega (gridOf hp' dx') eps mu pec pmc (bloch.getD 0) 0 = some A0 ∧
      solveLocal (shapeOf hp dx) solver hp dx omega J eps pml mu pec pmc none bloch none adjoint = some x0 ∧
      ((∃ x, Solves A0 omega J adjoint x) → Solves A0 omega J adjoint x0) := by
  have hdef := (pml_defined hp dx pml omega ha).2 (fun a f => by
    have := hsep a
    cases f <;> omega)
  obtain ⟨⟨hp', dx'⟩, happ⟩ := Option.isSome_iff_exists.1 hdef
  obtain ⟨A0, hA⟩ := eFull_defined (shapeOf hp dx) omega (gridOf hp' dx') eps mu pec pmc (bloch.getD 0)
  refine ⟨hp', dx', A0, _, happ, hA, by
    rw [solveLocal, happ]
    simp only [anyNonzero, Bool.false_eq_true, if_false, Option.bind_some, hA, Option.map_some]
    rfl, fun hex => ?_⟩
  exact solveSystem_solves solver hs omega _ (stretched_nonzero hp dx pml omega ha hpos ho hsep happ) J A0 adjoint hex

/-- `symmetry` and `pemc` other than zero are refused, not ignored. -/
theorem local_refuses (hp : GHeap) (dx : DxRef)
    (solver : Mat3 sh.size → VField sh.size → VField sh.size) (omega : ℂ) (J eps : VField sh.size) (pml : Pml)
    (mu : Option (VField sh.size)) (pec pmc : Option (Fin 3 × Fin sh.size → Bool)) (pemc symmetry : Option (List ℂ))
    (bloch : Option (Fin 3 → ℂ)) (adjoint : Bool)
    (h : (∃ l, pemc = some l ∧ ∃ x ∈ l, x ≠ 0) ∨ (∃ l, symmetry = some l ∧ ∃ x ∈ l, x ≠ 0)) :
    solveLocal sh solver hp dx omega J eps pml mu pec pmc pemc bloch symmetry adjoint = none := by
  unfold solveLocal
  rcases h with ⟨l, rfl, hl⟩ | ⟨l, rfl, hl⟩
  · by_cases hsy : anyNonzero symmetry = true
    · rw [if_pos hsy]
    · rw [if_neg hsy, if_pos (by simpa [anyNonzero] using hl)]
  · rw [if_pos (by simpa [anyNonzero] using hl)]

/-- An exact solver exists for every grid. -/
example (n : Nat) : ∃ solver : Mat3 n → VField n → VField n, Exact solver := by
  classical
  refine ⟨fun A b => if h : ∃ x, A *ᵥ x = b then h.choose else 0, fun A b h => ?_⟩
  simp only [dif_pos h]
  exact h.choose_spec

example : PositiveGrid twoCells ⟨0, 0⟩ := by
  have : ∀ a, twoCells.read 0 a = [1, 1] := fun _ => rfl
  refine ⟨fun _ => rfl, ?_, ?_⟩ <;>
  · intro a x hx
    rw [this] at hx
    have : x = 1 := by simpa using hx
    subst this
    simp

end Verif.Fdfd
