import Verif.Fdfd.Adjoint
import Verif.Fdfd.FieldDeriv
import Verif.Fdfd.SolverProps
import Mathlib.Analysis.Calculus.FDeriv.Add
import Mathlib.Analysis.Calculus.FDeriv.Mul
import Mathlib.LinearAlgebra.Complex.FiniteDimensional
/-
Property C22: the adjoint gradients of simulations are exact.
-/
namespace Verif.Fdfd
open Matrix
variable {sh : Shape}

/-! ### Specification -/

/-- A simulation on a real grid of positive widths with layers that fit, a positive wavelength and an exact inner
solver. -/
structure GoodSim (c : SimCfg sh) : Prop where
  shape : ∀ a, sh a = (c.hp.read c.dx.e a).length
  alloc : Allocated c.hp c.dx
  grid : PositiveGrid c.hp c.dx
  layers : ∀ a, max 0 (thickness c.pml a true) + max 0 (thickness c.pml a false) ≤
    (c.hp.read c.dx.e a).length
  wlen : 0 < c.wlen
  exact : Exact c.solver

/-- The wave operator of the simulation at the permittivity `eps`: `e_full` on the stretched grid. -/
noncomputable def waveOp (c : SimCfg sh) (eps : VField sh.size) : Option (Mat3 sh.size) :=
  (applyScpml c.hp c.dx c.pml c.omega).bind fun g =>
    eFull sh c.omega (gridOf g.1 g.2) eps none none none (c.bloch.getD 0) 0

/-! ### Lemmas -/

theorem omega_pos {c : SimCfg sh} (h : 0 < c.wlen) : 0 < c.omega.re := by
  rw [SimCfg.omega, Complex.ofReal_re]
  have := Real.pi_pos
  positivity

theorem omega_star (c : SimCfg sh) : star c.omega = c.omega := Complex.conj_ofReal _

/-- The wave operator depends on the permittivity through `-ω² diag ε` only, and `solve` solves its system. -/
theorem sim_system {c : SimCfg sh} (h : GoodSim c) : ∃ K : Mat3 sh.size,
    (∀ eps, waveOp c eps = some (K - c.omega ^ 2 • Matrix.diagonal eps)) ∧
    (∀ eps J adj, ∃ x, c.solve eps J adj = some x ∧
      ((∃ y, Solves (K - c.omega ^ 2 • Matrix.diagonal eps) c.omega J adj y) →
        Solves (K - c.omega ^ 2 • Matrix.diagonal eps) c.omega J adj x)) := by
  have hdef := (pml_defined c.hp c.dx c.pml c.omega h.alloc).2 (fun a f => by
    have := h.layers a
    cases f <;> omega)
  obtain ⟨⟨hp', dx'⟩, happ⟩ := Option.isSome_iff_exists.1 hdef
  have hnz : NonzeroGrid sh (gridOf hp' dx') := by
    intro a i hi
    exact stretched_nonzero c.hp c.dx c.pml c.omega h.alloc h.grid (omega_pos h.wlen) h.layers happ a i
      (by rw [h.shape] at hi; exact hi)
  obtain ⟨⟨ce, hce⟩, ⟨ch, hch⟩⟩ := curl_defined sh (gridOf hp' dx') (c.bloch.getD 0)
  have hA : ∀ eps, eFull sh c.omega (gridOf hp' dx') eps none none none (c.bloch.getD 0) 0 =
      some (ch * ce - c.omega ^ 2 • Matrix.diagonal eps) := by
    intro eps
    rw [eFull, hce, hch]
    simp only [Option.bind_some, Option.map_some, maskMat, invMat, Matrix.mul_one, Matrix.one_mul]
  refine ⟨ch * ce, fun eps => ?_, fun eps J adj => ?_⟩
  · rw [waveOp, happ]
    exact hA eps
  · refine ⟨solveSystem c.solver c.omega (gridOf hp' dx') J (ch * ce - c.omega ^ 2 • Matrix.diagonal eps) adj,
      ?_, fun hex => solveSystem_solves c.solver h.exact c.omega _ hnz J _ adj hex⟩
    rw [SimCfg.solve, solveLocal, happ]
    simp only [anyNonzero, Bool.false_eq_true, if_false, Option.bind_some, hA, Option.map_some]

theorem unit_conjTranspose {n : Nat} {W : Mat3 n} (hu : IsUnit W.det) : IsUnit (Wᴴ).det := by
  rw [Matrix.det_conjTranspose]
  exact hu.star

/-- An invertible system has exactly one solution. -/
theorem solves_unique {n : Nat} {W : Mat3 n} (hu : IsUnit W.det) {omega : ℂ} {J x : VField n}
    (h : (∃ y, Solves W omega J false y) → Solves W omega J false x) :
    x = W⁻¹ *ᵥ ((-Complex.I * omega) • J) := by
  have hx : W *ᵥ x = (-Complex.I * omega) • J := h ⟨W⁻¹ *ᵥ ((-Complex.I * omega) • J), by
    show W *ᵥ _ = _
    rw [Matrix.mulVec_mulVec, Matrix.mul_nonsing_inv _ hu, Matrix.one_mulVec]⟩
  rw [← hx, Matrix.mulVec_mulVec, Matrix.nonsing_inv_mul _ hu, Matrix.one_mulVec]

theorem solves_adjoint {n : Nat} {W : Mat3 n} (hu : IsUnit W.det) {omega : ℂ} {J x : VField n}
    (h : (∃ y, Solves W omega J true y) → Solves W omega J true x) :
    Wᴴ *ᵥ x = (-Complex.I * omega) • J := h ⟨(Wᴴ)⁻¹ *ᵥ ((-Complex.I * omega) • J), by
    show Wᴴ *ᵥ _ = _
    rw [Matrix.mulVec_mulVec, Matrix.mul_nonsing_inv _ (unit_conjTranspose hu), Matrix.one_mulVec]⟩

/-- The adjoint trick. -/
theorem adjoint_identity {n : Nat} {W : Mat3 n} (hu : IsUnit W.det) {adj r : VField n} (h : Wᴴ *ᵥ adj = r)
    (u : VField n) : ∑ p, star (adj p) * u p = ∑ p, star (r p) * (W⁻¹ *ᵥ u) p := by
  have h1 : star r = star adj ᵥ* W := by
    rw [← h, Matrix.star_mulVec, Matrix.conjTranspose_conjTranspose]
  have h2 : u = W *ᵥ (W⁻¹ *ᵥ u) := by
    rw [Matrix.mulVec_mulVec, Matrix.mul_nonsing_inv _ hu, Matrix.one_mulVec]
  show star adj ⬝ᵥ u = star r ⬝ᵥ (W⁻¹ *ᵥ u)
  rw [h1, ← Matrix.dotProduct_mulVec, ← h2]

theorem adjointSource_eq {n m : Nat} (ws : Fin m → VField n) (g : Fin m → ℂ) (p : Fin 3 × Fin n) :
    goosAdjointSource ws g p = ∑ k, star (g k * ws k p) := by
  have key : ∀ (l : List (Fin m)) (acc : VField n),
      (l.foldl (fun src k => src + fun p => star (g k * ws k p)) acc) p =
        acc p + (l.map fun k => star (g k * ws k p)).sum := by
    intro l
    induction l with
    | nil => intro acc; simp
    | cons k l ih =>
      intro acc
      rw [List.foldl_cons, ih]
      simp only [Pi.add_apply, List.map_cons, List.sum_cons, add_assoc]
  rw [goosAdjointSource, key, Pi.zero_apply, zero_add]
  exact (List.sum_ofFn (f := fun k => star (g k * ws k p))).symm ▸ by
    rw [List.ofFn_eq_map]

/-- Real derivatives: composition with the solution map. -/
theorem objective_deriv (K : Mat3 sh.size) (w2 : ℂ) (b eps : VField sh.size)
    (hu : IsUnit (K - w2 • Matrix.diagonal eps).det)
    (H : VField sh.size → ℝ) (L : VField sh.size →L[ℝ] ℝ)
    (hH : HasFDerivAt H L ((K - w2 • Matrix.diagonal eps)⁻¹ *ᵥ b))
    (f : VField sh.size → VField sh.size)
    (hf : ∀ e, IsUnit (K - w2 • Matrix.diagonal e).det → f e = (K - w2 • Matrix.diagonal e)⁻¹ *ᵥ b) :
    ∃ L' : VField sh.size →L[ℝ] ℝ, (∀ v, L' v = L (w2 • ((K - w2 • Matrix.diagonal eps)⁻¹ *ᵥ
        (fun p => v p * f eps p)))) ∧ HasFDerivAt (fun e => H (f e)) L' eps := by
  obtain ⟨L1, h1, h2⟩ := field_hasFDerivAt K w2 b eps hu
  refine ⟨L.comp (L1.restrictScalars ℝ), fun v => ?_, ?_⟩
  · rw [hf eps hu]
    exact congrArg L (h1 v)
  · have h3 := hH.comp eps (h2.restrictScalars ℝ)
    refine h3.congr_of_eventuallyEq ?_
    have hWc : Continuous (fun e : VField sh.size => (K - w2 • Matrix.diagonal e).det) :=
      (continuous_const.sub (continuous_id.matrix_diagonal.const_smul w2)).matrix_det
    filter_upwards [hWc.continuousAt.eventually_ne hu.ne_zero] with e he
    exact congrArg H (hf e (IsUnit.mk0 _ he))

/-! ### goos -/

theorem goos_core {c : SimCfg sh} (h : GoodSim c) {m : Nat} (ws : Fin m → VField sh.size) (eps : VField sh.size)
    {A : Mat3 sh.size} (hA : waveOp c eps = some A) (hu : IsUnit A.det)
    (F : (Fin m → ℂ) → ℝ) (g : Fin m → ℂ) (L : (Fin m → ℂ) →L[ℝ] ℝ) (hL : ∀ v, L v = ∑ k, 2 * (g k * v k).re)
    (hF : ∀ o, goosEval c ws eps = some o → HasFDerivAt F L o) :
    ∃ fields adj, simFields c eps = some fields ∧ c.solve eps (goosAdjointSource ws g) true = some adj ∧
      ∃ L' : VField sh.size →L[ℝ] ℝ,
        (∀ v, L' v = ∑ p, 2 * (-Complex.I * c.omega * star (adj p) * fields p * v p).re) ∧
        HasFDerivAt (fun e => F ((goosEval c ws e).getD 0)) L' eps := by
  obtain ⟨K, hK, hsol⟩ := sim_system h
  rw [hK] at hA
  cases hA
  choose f hf1 hf2 using fun e => hsol e c.J false
  obtain ⟨adj, ha1, ha2⟩ := hsol eps (goosAdjointSource ws g) true
  refine ⟨f eps, adj, hf1 eps, ha1, ?_⟩
  have hfe := fun e (he : IsUnit (K - c.omega ^ 2 • Matrix.diagonal e).det) => solves_unique he (hf2 e)
  have hadj := solves_adjoint hu ha2
  have hev : ∀ e, goosEval c ws e = some (fun k => overlapEval (ws k) (f e)) := by
    intro e
    have : simFields c e = some (f e) := hf1 e
    rw [goosEval, this]; rfl
  let O : VField sh.size →ₗ[ℝ] (Fin m → ℂ) :=
    { toFun := fun x k => overlapEval (ws k) x
      map_add' := by
        intro x y; funext k
        simp only [overlapEval, Pi.add_apply, mul_add, Finset.sum_add_distrib]
      map_smul' := by
        intro a x; funext k
        simp only [overlapEval, Pi.smul_apply, RingHom.id_apply, Complex.real_smul, Finset.mul_sum]
        apply Finset.sum_congr rfl; intro p _; ring }
  have hH : HasFDerivAt (fun x => F (fun k => overlapEval (ws k) x)) (L.comp (LinearMap.toContinuousLinearMap O))
      ((K - c.omega ^ 2 • Matrix.diagonal eps)⁻¹ *ᵥ ((-Complex.I * c.omega) • c.J)) := by
    rw [← hfe eps hu]
    exact (hF _ (hev eps)).comp (f eps) (LinearMap.toContinuousLinearMap O).hasFDerivAt
  obtain ⟨L', h1, h2⟩ := objective_deriv K _ _ eps hu _ _ hH f hfe
  refine ⟨L', fun v => ?_, ?_⟩
  · rw [h1]
    show L (fun k => overlapEval (ws k) _) = _
    rw [hL]
    have hid := adjoint_identity hu hadj (fun p => v p * f eps p)
    have hsum : ∀ (s : Finset (Fin 3 × Fin sh.size)) (q : Fin 3 × Fin sh.size → ℂ),
        ∑ p ∈ s, 2 * (q p).re = 2 * (∑ p ∈ s, q p).re := by
      intro s q; rw [Complex.re_sum, Finset.mul_sum]
    rw [hsum, ← Finset.mul_sum, ← Complex.re_sum]
    congr 2
    set z := (K - c.omega ^ 2 • Matrix.diagonal eps)⁻¹ *ᵥ (fun p => v p * f eps p) with hz
    have e1 : ∑ p, -Complex.I * c.omega * star (adj p) * f eps p * v p =
        -Complex.I * c.omega * ∑ p, star (adj p) * (v p * f eps p) := by
      rw [Finset.mul_sum]; apply Finset.sum_congr rfl; intro p _; ring
    rw [e1, hid, Finset.mul_sum]
    have e2 : ∀ p, star (((-Complex.I * c.omega) • goosAdjointSource ws g) p) =
        Complex.I * c.omega * ∑ k, g k * ws k p := by
      intro p
      rw [Pi.smul_apply, smul_eq_mul, star_mul', star_mul', adjointSource_eq, star_sum, omega_star]
      simp
    simp only [overlapEval, Pi.smul_apply, smul_eq_mul]
    simp only [Finset.mul_sum]
    rw [Finset.sum_comm]
    apply Finset.sum_congr rfl
    intro p _
    have e3 := e2 p
    rw [Pi.smul_apply, smul_eq_mul] at e3
    rw [e3, Finset.mul_sum, Finset.sum_mul, Finset.mul_sum]
    apply Finset.sum_congr rfl
    intro k _
    linear_combination (c.omega ^ 2 * g k * ws k p * z p) * Complex.I_sq
  · refine h2.congr_of_eventuallyEq (Filter.Eventually.of_forall fun e => ?_)
    show F ((goosEval c ws e).getD 0) = F _
    rw [hev e]; rfl

/-- C22 for goos: let a real objective `F` of the overlaps have the derivative `dF = Σ 2 Re(g_k do_k)`. Then
`SimulateNode.grad`, called right after `eval` at the same permittivity, returns `G` with
`dF = Σ 2 Re(G_p dε_p)`, for every complex direction `dε`. -/
theorem goos_grad_exact {c : SimCfg sh} (h : GoodSim c) {m : Nat} (ws : Fin m → VField sh.size)
    (eps : VField sh.size) {A : Mat3 sh.size} (hA : waveOp c eps = some A) (hu : IsUnit A.det)
    (F : (Fin m → ℂ) → ℝ) (g : Fin m → ℂ) (L : (Fin m → ℂ) →L[ℝ] ℝ) (hL : ∀ v, L v = ∑ k, 2 * (g k * v k).re)
    (hF : ∀ o, goosEval c ws eps = some o → HasFDerivAt F L o) :
    ∃ fields G, simFields c eps = some fields ∧ goosGrad c ws fields eps g false = some G ∧
      ∃ L' : VField sh.size →L[ℝ] ℝ, (∀ v, L' v = ∑ p, 2 * (G p * v p).re) ∧
        HasFDerivAt (fun e => F ((goosEval c ws e).getD 0)) L' eps := by
  obtain ⟨fields, adj, h1, h2, L', h3, h4⟩ := goos_core h ws eps hA hu F g L hL hF
  refine ⟨fields, _, h1, ?_, L', h3, h4⟩
  rw [goosGrad, h2]
  rfl

/-- C22 for goos and a real permittivity array: `dF = Σ G_p dε_p`, and `G` is real. -/
theorem goos_grad_exact_real {c : SimCfg sh} (h : GoodSim c) {m : Nat} (ws : Fin m → VField sh.size)
    (eps : Fin 3 × Fin sh.size → ℝ) {A : Mat3 sh.size} (hA : waveOp c (fun p => (eps p : ℂ)) = some A)
    (hu : IsUnit A.det) (F : (Fin m → ℂ) → ℝ) (g : Fin m → ℂ) (L : (Fin m → ℂ) →L[ℝ] ℝ)
    (hL : ∀ v, L v = ∑ k, 2 * (g k * v k).re)
    (hF : ∀ o, goosEval c ws (fun p => (eps p : ℂ)) = some o → HasFDerivAt F L o) :
    ∃ fields G, simFields c (fun p => (eps p : ℂ)) = some fields ∧
      goosGrad c ws fields (fun p => (eps p : ℂ)) g true = some G ∧ (∀ p, (G p).im = 0) ∧
      ∃ L' : (Fin 3 × Fin sh.size → ℝ) →L[ℝ] ℝ, (∀ v, L' v = ∑ p, (G p).re * v p) ∧
        HasFDerivAt (fun e : Fin 3 × Fin sh.size → ℝ => F ((goosEval c ws (fun p => (e p : ℂ))).getD 0)) L' eps := by
  obtain ⟨fields, adj, h1, h2, L', h3, h4⟩ := goos_core h ws (fun p => (eps p : ℂ)) hA hu F g L hL hF
  let R : (Fin 3 × Fin sh.size → ℝ) →ₗ[ℝ] VField sh.size :=
    { toFun := fun x p => (x p : ℂ)
      map_add' := by intro x y; funext p; simp
      map_smul' := by intro a x; funext p; simp }
  refine ⟨fields, fun p => ((2 * (-Complex.I * c.omega * star (adj p) * fields p).re : ℝ) : ℂ), h1, ?_, fun p => Complex.ofReal_im _,
    L'.comp (LinearMap.toContinuousLinearMap R), fun v => ?_, ?_⟩
  · rw [goosGrad, h2]
    rfl
  · show L' (fun p => (v p : ℂ)) = _
    rw [h3]
    apply Finset.sum_congr rfl
    intro p _
    rw [Complex.ofReal_re, Complex.re_mul_ofReal]
    ring
  · exact HasFDerivAt.comp (g := fun e => F ((goosEval c ws e).getD 0)) eps h4
      (LinearMap.toContinuousLinearMap R).hasFDerivAt

/-! ### invdes -/

theorem invdes_core {c : SimCfg sh} (h : GoodSim c) (eps : VField sh.size)
    {A : Mat3 sh.size} (hA : waveOp c eps = some A) (hu : IsUnit A.det)
    (F : VField sh.size → ℝ) (g : VField sh.size) (L : VField sh.size →L[ℝ] ℝ)
    (hL : ∀ v, L v = ∑ p, (g p * v p).re)
    (hF : ∀ o, simFields c eps = some o → HasFDerivAt F L o) :
    ∃ fields d, simFields c eps = some fields ∧
      c.solve eps (fun p => star (g p) / (-Complex.I * c.omega)) true = some d ∧
      ∃ L' : VField sh.size →L[ℝ] ℝ,
        (∀ v, L' v = ∑ p, (star (d p) * (c.omega ^ 2 * fields p) * v p).re) ∧
        HasFDerivAt (fun e => F ((simFields c e).getD 0)) L' eps := by
  obtain ⟨K, hK, hsol⟩ := sim_system h
  rw [hK] at hA
  cases hA
  choose f hf1 hf2 using fun e => hsol e c.J false
  obtain ⟨d, ha1, ha2⟩ := hsol eps (fun p => star (g p) / (-Complex.I * c.omega)) true
  refine ⟨f eps, d, hf1 eps, ha1, ?_⟩
  have hfe := fun e (he : IsUnit (K - c.omega ^ 2 • Matrix.diagonal e).det) => solves_unique he (hf2 e)
  have hadj := solves_adjoint hu ha2
  have hev : ∀ e, simFields c e = some (f e) := fun e => hf1 e
  have hw0 : -Complex.I * c.omega ≠ 0 := by
    have h0 : c.omega ≠ 0 := by
      intro h0
      have := omega_pos h.wlen
      rw [h0] at this
      simp at this
    exact mul_ne_zero (neg_ne_zero.2 Complex.I_ne_zero) h0
  have hH : HasFDerivAt F L
      ((K - c.omega ^ 2 • Matrix.diagonal eps)⁻¹ *ᵥ ((-Complex.I * c.omega) • c.J)) := by
    rw [← hfe eps hu]
    exact hF _ (hev eps)
  obtain ⟨L', h1, h2⟩ := objective_deriv K _ _ eps hu _ _ hH f hfe
  refine ⟨L', fun v => ?_, ?_⟩
  · rw [h1, hL]
    have hid := adjoint_identity hu hadj (fun p => v p * f eps p)
    rw [← Complex.re_sum, ← Complex.re_sum]
    congr 1
    set z := (K - c.omega ^ 2 • Matrix.diagonal eps)⁻¹ *ᵥ (fun p => v p * f eps p) with hz
    have e1 : ∑ p, star (d p) * (c.omega ^ 2 * f eps p) * v p =
        c.omega ^ 2 * ∑ p, star (d p) * (v p * f eps p) := by
      rw [Finset.mul_sum]; apply Finset.sum_congr rfl; intro p _; ring
    rw [e1, hid, Finset.mul_sum]
    have e2 : ∀ p, star (((-Complex.I * c.omega) • fun p => star (g p) / (-Complex.I * c.omega)) p) = g p := by
      intro p
      rw [Pi.smul_apply, smul_eq_mul, mul_div_cancel₀ _ hw0, star_star]
    apply Finset.sum_congr rfl
    intro p _
    rw [e2 p, Pi.smul_apply, smul_eq_mul]
    ring
  · refine h2.congr_of_eventuallyEq (Filter.Eventually.of_forall fun e => ?_)
    show F ((simFields c e).getD 0) = F _
    rw [hev e]; rfl

/-- C22 for invdes, in the convention of that code (`dF = Re Σ g_p dE_p`): `FdfdSimulation.grad` returns `G` with
`dF = Re Σ G_p dε_p`. -/
theorem invdes_grad_exact {c : SimCfg sh} (h : GoodSim c) (eps : VField sh.size)
    {A : Mat3 sh.size} (hA : waveOp c eps = some A) (hu : IsUnit A.det)
    (F : VField sh.size → ℝ) (g : VField sh.size) (L : VField sh.size →L[ℝ] ℝ)
    (hL : ∀ v, L v = ∑ p, (g p * v p).re)
    (hF : ∀ o, simFields c eps = some o → HasFDerivAt F L o) :
    ∃ G, invdesGrad c eps g false = some G ∧
      ∃ L' : VField sh.size →L[ℝ] ℝ, (∀ v, L' v = ∑ p, (G p * v p).re) ∧
        HasFDerivAt (fun e => F ((simFields c e).getD 0)) L' eps := by
  obtain ⟨fields, d, h1, h2, L', h3, h4⟩ := invdes_core h eps hA hu F g L hL hF
  refine ⟨_, ?_, L', h3, h4⟩
  rw [invdesGrad, h1, Option.bind_some, h2]
  rfl

/-- The same for a real permittivity: `dF = Σ G_p dε_p`. -/
theorem invdes_grad_exact_real {c : SimCfg sh} (h : GoodSim c) (eps : Fin 3 × Fin sh.size → ℝ)
    {A : Mat3 sh.size} (hA : waveOp c (fun p => (eps p : ℂ)) = some A) (hu : IsUnit A.det)
    (F : VField sh.size → ℝ) (g : VField sh.size) (L : VField sh.size →L[ℝ] ℝ)
    (hL : ∀ v, L v = ∑ p, (g p * v p).re)
    (hF : ∀ o, simFields c (fun p => (eps p : ℂ)) = some o → HasFDerivAt F L o) :
    ∃ G, invdesGrad c (fun p => (eps p : ℂ)) g true = some G ∧ (∀ p, (G p).im = 0) ∧
      ∃ L' : (Fin 3 × Fin sh.size → ℝ) →L[ℝ] ℝ, (∀ v, L' v = ∑ p, (G p).re * v p) ∧
        HasFDerivAt (fun e : Fin 3 × Fin sh.size → ℝ => F ((simFields c (fun p => (e p : ℂ))).getD 0)) L' eps := by
  obtain ⟨fields, d, h1, h2, L', h3, h4⟩ := invdes_core h (fun p => (eps p : ℂ)) hA hu F g L hL hF
  let R : (Fin 3 × Fin sh.size → ℝ) →ₗ[ℝ] VField sh.size :=
    { toFun := fun x p => (x p : ℂ)
      map_add' := by intro x y; funext p; simp
      map_smul' := by intro a x; funext p; simp }
  refine ⟨fun p => (((star (d p) * (c.omega ^ 2 * fields p)).re : ℝ) : ℂ), ?_, fun p => Complex.ofReal_im _,
    L'.comp (LinearMap.toContinuousLinearMap R), fun v => ?_, ?_⟩
  · rw [invdesGrad, h1, Option.bind_some, h2]
    rfl
  · show L' (fun p => (v p : ℂ)) = _
    rw [h3]
    apply Finset.sum_congr rfl
    intro p _
    rw [Complex.ofReal_re, Complex.re_mul_ofReal]
  · exact HasFDerivAt.comp (g := fun e => F ((simFields c e).getD 0)) eps h4
      (LinearMap.toContinuousLinearMap R).hasFDerivAt

/-! ### EmObjective -/

/-- C22 for `EmObjective`, with an exact adjoint simulation (`Aᴴ d = -iω J`, which `ConjProps` shows for
real `ω` only): the structure `z` enters through
`ε = ε₀ + S z` and the objective has `dF = 2 Re Σ (∂f/∂x)_p dE_p`. `calculate_df_dz` is the gradient with respect
to `z`. -/
theorem em_df_dz_exact {n m : Nat} (omega : ℂ) (h0 : omega ≠ 0) (K : Mat3 n)
    (b eps0 : VField n) (S : Matrix (Fin 3 × Fin n) (Fin m) ℂ) (z : Fin m → ℝ)
    (fields : (Fin m → ℝ) → VField n)
    (hf : ∀ z', fields z' = (K - omega ^ 2 • Matrix.diagonal (eps0 + S *ᵥ fun j => (z' j : ℂ)))⁻¹ *ᵥ b)
    (hu : IsUnit (K - omega ^ 2 • Matrix.diagonal (eps0 + S *ᵥ fun j => (z j : ℂ))).det)
    (adjoint : VField n → VField n)
    (hadj : ∀ J, (K - omega ^ 2 • Matrix.diagonal (eps0 + S *ᵥ fun j => (z j : ℂ)))ᴴ *ᵥ adjoint J =
      (-Complex.I * omega) • J)
    (F : VField n → ℝ) (dfdx : VField n) (L : VField n →L[ℝ] ℝ) (hL : ∀ v, L v = ∑ p, 2 * (dfdx p * v p).re)
    (hF : HasFDerivAt F L (fields z)) :
    ∃ L' : (Fin m → ℝ) →L[ℝ] ℝ, (∀ v, L' v = ∑ j, emDfDz omega S adjoint (fields z) dfdx j * v j) ∧
      HasFDerivAt (fun z' => F (fields z')) L' z := by
  let R : (Fin m → ℝ) →ₗ[ℝ] VField n :=
    { toFun := fun x => S *ᵥ fun j => (x j : ℂ)
      map_add' := by
        intro x y
        rw [← Matrix.mulVec_add]; congr 1; funext p; simp
      map_smul' := by
        intro a x
        rw [RingHom.id_apply, ← Matrix.mulVec_smul]; congr 1; funext p; simp }
  set eps := eps0 + S *ᵥ fun j => (z j : ℂ) with heps
  obtain ⟨L1, h1, h2⟩ := field_hasFDerivAt K (omega ^ 2) b eps hu
  have hR : HasFDerivAt (fun z' : Fin m → ℝ => eps0 + S *ᵥ fun j => (z' j : ℂ))
      (LinearMap.toContinuousLinearMap R) z := by
    have := (LinearMap.toContinuousLinearMap R).hasFDerivAt (x := z)
    exact this.const_add eps0
  have h3 : HasFDerivAt fields ((L1.restrictScalars ℝ).comp (LinearMap.toContinuousLinearMap R)) z := by
    have := HasFDerivAt.comp (g := fun e => (K - omega ^ 2 • Matrix.diagonal e)⁻¹ *ᵥ b) z
      (h2.restrictScalars ℝ) hR
    refine this.congr_of_eventuallyEq (Filter.Eventually.of_forall fun z' => ?_)
    exact hf z'
  refine ⟨L.comp ((L1.restrictScalars ℝ).comp (LinearMap.toContinuousLinearMap R)), fun v => ?_, hF.comp z h3⟩
  show L (L1 (S *ᵥ fun j => (v j : ℂ))) = _
  rw [hL, h1]
  have hid := adjoint_identity hu (hadj (fun p => star (dfdx p) / (-Complex.I * omega)))
    (fun p => (S *ᵥ fun j => (v j : ℂ)) p * ((K - omega ^ 2 • Matrix.diagonal eps)⁻¹ *ᵥ b) p)
  have hw0 : -Complex.I * omega ≠ 0 := mul_ne_zero (neg_ne_zero.2 Complex.I_ne_zero) h0
  have e2 : ∀ p, star (((-Complex.I * omega) • fun p => star (dfdx p) / (-Complex.I * omega)) p) = dfdx p := by
    intro p
    rw [Pi.smul_apply, smul_eq_mul, mul_div_cancel₀ _ hw0, star_star]
  replace hid := hid.trans (Finset.sum_congr rfl (fun p _ => congrArg (· * _) (e2 p)))
  have hsum : ∀ {α : Type} (s : Finset α) (q : α → ℂ), ∑ p ∈ s, 2 * (q p).re = 2 * (∑ p ∈ s, q p).re := by
    intro α s q; rw [Complex.re_sum, Finset.mul_sum]
  have hR2 : ∀ j, emDfDz omega S adjoint (fields z) dfdx j * v j =
      2 * (((fun p => star (adjoint (fun p => star (dfdx p) / (-Complex.I * omega)) p)) ᵥ*
        ((omega ^ 2 • Matrix.diagonal (fields z)) * S)) j * (v j : ℂ)).re := by
    intro j
    rw [Complex.re_mul_ofReal, ← mul_assoc]; rfl
  rw [Finset.sum_congr rfl (fun j _ => hR2 j), hsum, hsum]
  congr 2
  set d := adjoint (fun p => star (dfdx p) / (-Complex.I * omega)) with hd
  rw [← hf z] at hid
  have hlhs : ∑ p, dfdx p * (omega ^ 2 • ((K - omega ^ 2 • Matrix.diagonal eps)⁻¹ *ᵥ
        fun p => (S *ᵥ fun j => (v j : ℂ)) p * ((K - omega ^ 2 • Matrix.diagonal eps)⁻¹ *ᵥ b) p)) p =
      omega ^ 2 * ∑ p, star (d p) * ((S *ᵥ fun j => (v j : ℂ)) p * fields z p) := by
    rw [hid, ← hf z, Finset.mul_sum]
    apply Finset.sum_congr rfl
    intro p _
    rw [Pi.smul_apply, smul_eq_mul]
    ring
  rw [hlhs]
  show _ = ((fun p => star (d p)) ᵥ* ((omega ^ 2 • Matrix.diagonal (fields z)) * S)) ⬝ᵥ (fun j => (v j : ℂ))
  rw [← Matrix.dotProduct_mulVec, ← Matrix.mulVec_mulVec, Matrix.smul_mulVec, dotProduct_smul, smul_eq_mul]
  congr 1
  apply Finset.sum_congr rfl
  intro p _
  rw [Matrix.mulVec_diagonal]
  ring

/-! ### The hypotheses can be met -/

/-- A simulation of eight cells with an exact solver. -/
example : ∃ c : SimCfg ![2, 2, 2], GoodSim c ∧ c.J ≠ 0 := by
  classical
  refine ⟨⟨twoCells, ⟨0, 0⟩, 1, .scalar 1, none, fun _ => 1,
    fun A b => if h : ∃ x, A *ᵥ x = b then h.choose else 0⟩, ?_, ?_⟩
  · have hr : ∀ a, twoCells.read 0 a = [1, 1] := fun _ => rfl
    have hpos : ∀ (a : Fin 3), ∀ x ∈ twoCells.read 0 a, x.im = 0 ∧ 0 < x.re := by
      intro a x hx
      rw [hr] at hx
      have : x = 1 := by simpa using hx
      subst this
      simp
    refine ⟨?_, ?_, ⟨fun _ => rfl, hpos, hpos⟩, ?_, one_pos, fun A b h => ?_⟩
    · intro a
      match a with
      | 0 => rfl
      | 1 => rfl
      | 2 => rfl
    · exact twoCells_allocated
    · intro a
      show max 0 (1 : Int) + max 0 1 ≤ ((twoCells.read 0 a).length : Int)
      rw [hr]; decide
    · simp only [dif_pos h]
      exact h.choose_spec
  · intro h
    exact one_ne_zero (congrFun h (0, ⟨0, by decide⟩))

/-- Without curls (a one cell grid) the system is diagonal, so it is invertible wherever `ε ≠ 0`. -/
example (n : Nat) : ∃ (K : Mat3 n) (eps : VField n), IsUnit (K - (2 : ℂ) ^ 2 • Matrix.diagonal eps).det := by
  refine ⟨0, fun _ => 1, ?_⟩
  have : ((0 : Mat3 n) - (2 : ℂ) ^ 2 • Matrix.diagonal (fun _ => 1)) = (-4 : ℂ) • 1 := by
    rw [Matrix.diagonal_one]; norm_num
  rw [this, Matrix.det_smul, Matrix.det_one, mul_one]
  exact (IsUnit.mk0 _ (by norm_num)).pow _

end Verif.Fdfd
