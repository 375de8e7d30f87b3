import Verif.Fdfd.GoosChain
import Verif.Fdfd.EmChainProps
import Verif.Render.PixelProps
import Verif.Obj.NodeProps
import Verif.Fdfd.PlanePowerProps
/-
Property C112: gradients of overlaps with respect to the values of a pixelated shape in goos, end to end.
-/
namespace Verif.Fdfd
open Matrix
variable {n m : Nat}

/-! ### Specification -/

/-- The permittivity if only the component `a` follows the pixels `z'` and the others stay as for `z`. -/
noncomputable def oneComponent (base : VField n) (mats : Fin 3 → Nat → Nat → ℝ) (contrast : ℂ) (z : Fin m → ℝ) (a : Fin 3)
    (z' : Fin m → ℝ) : VField n := fun p =>
  if p.1 = a then renderEval base mats contrast z' p else renderEval base mats contrast z p

/-! ### Lemmas -/

theorem sum_range_fin {M : Type*} [AddCommMonoid M] (m : Nat) (f : Nat → M) : ((List.range m).map f).sum = ∑ j : Fin m, f j := by
  induction m with
  | zero => simp
  | succ m ih => rw [List.range_succ, List.map_append, List.sum_append, ih, Fin.sum_univ_castSucc]; simp

theorem pixelValues_fin (z : Fin m → ℝ) (j : Fin m) : pixelValues z j = z j := by
  simp [pixelValues]

theorem component_fin (g : VField n) (a : Fin 3) (i : Fin n) : component g a i = g (a, i) := by
  simp [component]

/-- The rendering as a matrix. -/
noncomputable def renderMat (mats : Fin 3 → Nat → Nat → ℝ) (contrast : ℂ) : Matrix (Fin 3 × Fin n) (Fin m) ℂ :=
  fun p j => contrast * (mats p.1 p.2 j : ℂ)

theorem renderEval_eq (base : VField n) (mats : Fin 3 → Nat → Nat → ℝ) (contrast : ℂ) (z : Fin m → ℝ) :
    renderEval base mats contrast z = epsilonEval base (renderMat mats contrast) z := by
  funext p
  simp only [renderEval, epsilonEval, Render.pixEval, Pi.add_apply, mulVec, dotProduct, renderMat, sum_range_fin, pixelValues_fin]

theorem oneComponent_eq (base : VField n) (mats : Fin 3 → Nat → Nat → ℝ) (contrast : ℂ) (z : Fin m → ℝ) (a : Fin 3)
    (z' : Fin m → ℝ) :
    oneComponent base mats contrast z a z' =
      epsilonEval (fun p => if p.1 = a then base p else renderEval base mats contrast z p)
        (fun p j => if p.1 = a then renderMat mats contrast p j else 0) z' := by
  funext p
  by_cases h : p.1 = a
  · simp only [oneComponent, if_pos h, renderEval_eq, epsilonEval, Pi.add_apply, mulVec, dotProduct]
  · simp only [oneComponent, if_neg h, epsilonEval, Pi.add_apply, mulVec, dotProduct, zero_mul, Finset.sum_const_zero, add_zero]

theorem oneComponent_self (base : VField n) (mats : Fin 3 → Nat → Nat → ℝ) (contrast : ℂ) (z : Fin m → ℝ) (a : Fin 3) :
    oneComponent base mats contrast z a z = renderEval base mats contrast z := by
  funext p
  simp [oneComponent]

/-- What the objective changes by through the component `a`, for the gradient `G` with respect to the permittivity. -/
noncomputable def part (mats : Fin 3 → Nat → Nat → ℝ) (contrast : ℂ) (G : VField n) (a : Fin 3) (j : Fin m) : ℝ :=
  2 * Render.axisPart n contrast (mats a, component G a) j

theorem part_eq (mats : Fin 3 → Nat → Nat → ℝ) (contrast : ℂ) (G : VField n) (a : Fin 3) (j : Fin m) :
    part mats contrast G a j = ∑ i, (2 * G (a, i) * renderMat mats contrast (a, i) j).re := by
  simp only [part, Render.axisPart, sum_range_fin, component_fin, renderMat, Complex.re_sum, Finset.mul_sum]
  refine Finset.sum_congr rfl fun i _ => ?_
  rw [show 2 * G (a, i) * (contrast * (mats a i j : ℂ)) = ((2 : ℝ) : ℂ) * (contrast * (mats a i j : ℂ) * G (a, i)) by push_cast; ring,
    Complex.re_ofReal_mul]

theorem structGrad_congr {F : (Fin m → ℝ) → ℝ} {z g g' : Fin m → ℝ} (h : StructGrad F z g) (e : g = g') : StructGrad F z g' := e ▸ h

/-- Gradients are unique. -/
theorem structGrad_unique {F : (Fin m → ℝ) → ℝ} {z g g' : Fin m → ℝ} (h : StructGrad F z g) (h' : StructGrad F z g') : g = g' := by
  obtain ⟨L, hL, hd⟩ := h
  obtain ⟨L', hL', hd'⟩ := h'
  have := hd.unique hd'
  subst this
  funext j
  have := hL (Pi.single j 1)
  rw [hL'] at this
  simpa [Pi.single_apply] using this.symm

/-- The gradient of the rendering: 4, 2 and 1 times what the three components contribute. -/
theorem renderGrad_eq (mats : Fin 3 → Nat → Nat → ℝ) (contrast : ℂ) (G : VField n) (j : Fin m) :
    renderGrad mats contrast G j =
      4 * part mats contrast G 0 j + 2 * part mats contrast G 1 j + part mats contrast G 2 j := by
  rw [renderGrad, Render.pixel_grad_complex]
  simp only [part]
  ring

/-! ### C112 -/

/-- C112: let a real objective `F` of the overlaps have the derivative `dF = Σ 2 Re(g_k do_k)`. The objective has a gradient with respect
to the pixels, which is the sum of the contributions `P` of the three components of the permittivity; the backward pass returns
`4 P₀ + 2 P₁ + P₂`. -/
theorem goos_pixels_gradient {sh : Shape} {k : Nat} {c : SimCfg sh} (h : GoodSim c) (base : VField sh.size)
    (mats : Fin 3 → Nat → Nat → ℝ) (contrast : ℂ) (ws : Fin k → VField sh.size) (z : Fin m → ℝ)
    {A : Mat3 sh.size} (hA : waveOp c (renderEval base mats contrast z) = some A) (hu : IsUnit A.det)
    (F : (Fin k → ℂ) → ℝ) (g : Fin k → ℂ) (L : (Fin k → ℂ) →L[ℝ] ℝ) (hL : ∀ v, L v = ∑ i, 2 * (g i * v i).re)
    (hF : ∀ o, goosEval c ws (renderEval base mats contrast z) = some o → HasFDerivAt F L o) :
    ∃ P : Fin 3 → Fin m → ℝ,
      (∀ a, StructGrad (fun z' => F ((goosEval c ws (oneComponent base mats contrast z a z')).getD 0)) z (P a)) ∧
      StructGrad (fun z' => F ((goosEval c ws (renderEval base mats contrast z')).getD 0)) z (fun j => P 0 j + P 1 j + P 2 j) ∧
      goosBackward c base mats contrast ws z g = some fun j => 4 * P 0 j + 2 * P 1 j + P 2 j := by
  obtain ⟨fields, G, h1, h2, L', h3, h4⟩ := goos_grad_exact h ws (renderEval base mats contrast z) hA hu F g L hL hF
  have hfield : FieldGrad (fun e => F ((goosEval c ws e).getD 0)) (renderEval base mats contrast z) (fun p => 2 * G p) := by
    refine ⟨L', fun v => ?_, h4⟩
    rw [h3]
    refine Finset.sum_congr rfl fun p _ => ?_
    rw [mul_assoc, show (2 : ℂ) = ((2 : ℝ) : ℂ) by norm_num, Complex.re_ofReal_mul]
  refine ⟨fun a => part mats contrast G a, fun a => ?_, ?_, ?_⟩
  · have hf := hfield
    rw [← oneComponent_self base mats contrast z a, oneComponent_eq] at hf
    have := epsilon_gradient hf
    simp only [← oneComponent_eq] at this
    refine structGrad_congr this ?_
    funext j
    show _ = part mats contrast G a j
    rw [part_eq]
    simp only [epsilonGrad, vecMul, dotProduct, Complex.re_sum, Fintype.sum_prod_type]
    rw [Finset.sum_eq_single a]
    · simp
    · intro b _ hb
      simp [hb]
    · simp
  · have hf := hfield
    rw [renderEval_eq] at hf
    have := epsilon_gradient hf
    simp only [← renderEval_eq] at this
    refine structGrad_congr this ?_
    funext j
    simp only [part_eq, epsilonGrad, vecMul, dotProduct, Fintype.sum_prod_type, Fin.sum_univ_three, Complex.add_re, Complex.re_sum]
  · rw [goosBackward, h1, Option.bind_some, h2, Option.map_some]
    congr 1
    funext j
    exact renderGrad_eq mats contrast G j

/-- C112, the part that holds: if the pixels change the objective only through the third component of the permittivity, as in a
simulation in two dimensions whose field points along the third axis, the backward pass returns the gradient. Missing: the
other components, see `goos_pixels_gradient_false`. -/
theorem goos_pixels_gradient_partial {sh : Shape} {k : Nat} {c : SimCfg sh} (h : GoodSim c) (base : VField sh.size)
    (mats : Fin 3 → Nat → Nat → ℝ) (contrast : ℂ) (ws : Fin k → VField sh.size) (z : Fin m → ℝ)
    {A : Mat3 sh.size} (hA : waveOp c (renderEval base mats contrast z) = some A) (hu : IsUnit A.det)
    (F : (Fin k → ℂ) → ℝ) (g : Fin k → ℂ) (L : (Fin k → ℂ) →L[ℝ] ℝ) (hL : ∀ v, L v = ∑ i, 2 * (g i * v i).re)
    (hF : ∀ o, goosEval c ws (renderEval base mats contrast z) = some o → HasFDerivAt F L o)
    (hz : ∀ fields, simFields c (renderEval base mats contrast z) = some fields → ∀ i, fields (0, i) = 0 ∧ fields (1, i) = 0) :
    ∃ G, goosBackward c base mats contrast ws z g = some G ∧
      StructGrad (fun z' => F ((goosEval c ws (renderEval base mats contrast z')).getD 0)) z G := by
  obtain ⟨fields, G, h1, h2, L', h3, h4⟩ := goos_grad_exact h ws (renderEval base mats contrast z) hA hu F g L hL hF
  have hG : ∀ i, G (0, i) = 0 ∧ G (1, i) = 0 := by
    intro i
    have hz' := hz fields h1 i
    rw [goosGrad] at h2
    obtain ⟨adj, _, h5⟩ := Option.map_eq_some_iff.1 h2
    rw [← h5]
    simp [hz'.1, hz'.2]
  refine ⟨renderGrad mats contrast G, by rw [goosBackward, h1, Option.bind_some, h2, Option.map_some], ?_⟩
  have hfield : FieldGrad (fun e => F ((goosEval c ws e).getD 0)) (renderEval base mats contrast z) (fun p => 2 * G p) := by
    refine ⟨L', fun v => ?_, h4⟩
    rw [h3]
    refine Finset.sum_congr rfl fun p _ => ?_
    rw [mul_assoc, show (2 : ℂ) = ((2 : ℝ) : ℂ) by norm_num, Complex.re_ofReal_mul]
  rw [renderEval_eq] at hfield
  have := epsilon_gradient hfield
  simp only [← renderEval_eq] at this
  refine structGrad_congr this ?_
  funext j
  have e0 : part mats contrast G 0 j = 0 := by rw [part_eq]; simp [fun i => (hG i).1]
  have e1 : part mats contrast G 1 j = 0 := by rw [part_eq]; simp [fun i => (hG i).2]
  rw [renderGrad_eq, e0, e1]
  simp only [part_eq, epsilonGrad, vecMul, dotProduct, Fintype.sum_prod_type, Fin.sum_univ_three, Complex.add_re, Complex.re_sum]
  simp [fun i => (hG i).1, fun i => (hG i).2]

/-- C112: the gradients with respect to overlaps that are not dark, for an objective `Φ` of their absolute values. -/
theorem abs_backward_gradient {k : Nat} (o : Fin k → ℂ) (ho : ∀ i, o i ≠ 0) (Φ : (Fin k → ℝ) → ℝ) (w : Fin k → ℝ)
    (hΦ : ∃ L : (Fin k → ℝ) →L[ℝ] ℝ, (∀ v, L v = ∑ i, w i * v i) ∧ HasFDerivAt Φ L fun i => ‖o i‖) :
    ∃ (g : Fin k → ℂ) (L : (Fin k → ℂ) →L[ℝ] ℝ), absBackward o w = some g ∧ (∀ v, L v = ∑ i, 2 * (g i * v i).re) ∧
      HasFDerivAt (fun o => Φ fun i => ‖o i‖) L o := by
  have habs : ∀ i, Obj.goosAbsGrad (ι := Unit) true (fun (_ : Fin 1) (_ : Unit) => o i) (fun _ => w i)
      = some fun _ _ => star (o i) / (‖o i‖ : ℝ) * (w i : ℝ) / 2 := by
    intro i
    have hn : ¬ ∃ _ : Unit, ‖o i‖ = 0 := by simpa using ho i
    simp only [Obj.goosAbsGrad, if_neg hn, if_true]
    rfl
  obtain ⟨L, hL, hd⟩ := hΦ
  have hNum := fun i => abs_fn_gradient (φ := id) (ho i) (hasDerivAt_id (absFnEval (o i)))
  choose G hG hGn using hNum
  choose Li hLi hLd using hGn
  have hGe : ∀ i, G i = star (o i) / (‖o i‖ : ℝ) := by
    intro i
    have := hG i
    rw [absFnGrad, if_neg (norm_ne_zero_iff.2 (ho i))] at this
    rw [← Option.some.inj this]
    simp
  have hpi : HasFDerivAt (fun (o : Fin k → ℂ) i => ‖o i‖)
      (ContinuousLinearMap.pi fun i => (Li i).comp (ContinuousLinearMap.proj (R := ℝ) (φ := fun _ => ℂ) i)) o := by
    rw [hasFDerivAt_pi]
    intro i
    exact HasFDerivAt.comp (g := fun y : ℂ => ‖y‖) o (hLd i)
      (ContinuousLinearMap.hasFDerivAt (ContinuousLinearMap.proj (R := ℝ) (φ := fun _ => ℂ) i))
  refine ⟨fun i => star (o i) / (‖o i‖ : ℝ) * (w i : ℝ) / 2, _, ?_, ?_, HasFDerivAt.comp (g := Φ) o hd hpi⟩
  · rw [absBackward, if_pos (fun i => by rw [habs]; rfl)]
    congr 1
    funext i
    rw [habs]
    rfl
  · intro v
    rw [ContinuousLinearMap.comp_apply, hL]
    refine Finset.sum_congr rfl fun i _ => ?_
    simp only [ContinuousLinearMap.coe_pi', ContinuousLinearMap.comp_apply, ContinuousLinearMap.proj_apply]
    rw [hLi, hGe, ← Complex.re_ofReal_mul, show (2 : ℝ) * ((star (o i) / ((‖o i‖ : ℝ) : ℂ) * ((w i : ℝ) : ℂ) / 2) * v i).re
      = (((2 : ℝ) : ℂ) * ((star (o i) / ((‖o i‖ : ℝ) : ℂ) * ((w i : ℝ) : ℂ) / 2) * v i)).re by rw [Complex.re_ofReal_mul]]
    congr 1
    push_cast
    ring

/-- C112: an objective of the absolute values of overlaps, none of them dark: the backward pass through `AbsoluteValue`, the
simulation and the rendering weights the contributions of the three components with 4, 2 and 1. -/
theorem goos_power_gradient {sh : Shape} {k : Nat} {c : SimCfg sh} (h : GoodSim c) (base : VField sh.size)
    (mats : Fin 3 → Nat → Nat → ℝ) (contrast : ℂ) (ws : Fin k → VField sh.size) (z : Fin m → ℝ)
    {A : Mat3 sh.size} (hA : waveOp c (renderEval base mats contrast z) = some A) (hu : IsUnit A.det)
    (o : Fin k → ℂ) (ho : goosEval c ws (renderEval base mats contrast z) = some o) (hdark : ∀ i, o i ≠ 0)
    (Φ : (Fin k → ℝ) → ℝ) (w : Fin k → ℝ)
    (hΦ : ∃ L : (Fin k → ℝ) →L[ℝ] ℝ, (∀ v, L v = ∑ i, w i * v i) ∧ HasFDerivAt Φ L fun i => ‖o i‖) :
    ∃ P : Fin 3 → Fin m → ℝ,
      (∀ a, StructGrad (fun z' => Φ fun i => ‖(goosEval c ws (oneComponent base mats contrast z a z')).getD 0 i‖) z (P a)) ∧
      StructGrad (fun z' => Φ fun i => ‖(goosEval c ws (renderEval base mats contrast z')).getD 0 i‖) z
        (fun j => P 0 j + P 1 j + P 2 j) ∧
      goosAbsBackward c base mats contrast ws z w = some fun j => 4 * P 0 j + 2 * P 1 j + P 2 j := by
  obtain ⟨g, L, hg, hL, hd⟩ := abs_backward_gradient o hdark Φ w hΦ
  obtain ⟨P, h1, h2, h3⟩ := goos_pixels_gradient h base mats contrast ws z hA hu (fun o => Φ fun i => ‖o i‖) g L hL
    (fun o' ho' => by rw [ho] at ho'; cases ho'; exact hd)
  refine ⟨P, h1, h2, ?_⟩
  rw [goosAbsBackward, ho, Option.bind_some, hg, Option.bind_some, h3]

/-- In every simulation there is a real, uniform permittivity for which the fields are determined. -/
theorem exists_regular {sh : Shape} {c : SimCfg sh} (h : GoodSim c) :
    ∃ (s : ℝ) (A : Mat3 sh.size), waveOp c (fun _ => (s : ℂ)) = some A ∧ IsUnit A.det := by
  obtain ⟨K, hK, _⟩ := sim_system h
  have hω : c.omega ^ 2 ≠ 0 := by
    refine pow_ne_zero 2 fun h0 => ?_
    have := omega_pos (c := c) h.wlen
    rw [h0] at this
    exact lt_irrefl _ this
  obtain ⟨s, hs⟩ : ∃ s : ℝ, K.charpoly.eval (c.omega ^ 2 * s) ≠ 0 := by
    classical
    by_contra hall
    push Not at hall
    have hinj : Function.Injective fun s : ℝ => c.omega ^ 2 * (s : ℂ) := fun a b hab =>
      Complex.ofReal_injective (mul_left_cancel₀ hω hab)
    obtain ⟨y, hy⟩ := (Set.infinite_range_of_injective hinj).exists_notMem_finset K.charpoly.roots.toFinset
    obtain ⟨⟨t, rfl⟩, hy2⟩ := hy
    apply hy2
    rw [Multiset.mem_toFinset, Polynomial.mem_roots K.charpoly_monic.ne_zero]
    exact hall t
  refine ⟨s, _, hK _, ?_⟩
  rw [Matrix.eval_charpoly] at hs
  rw [isUnit_iff_ne_zero]
  have : K - c.omega ^ 2 • Matrix.diagonal (fun _ => (s : ℂ)) = -(Matrix.scalar (Fin 3 × Fin sh.size) (c.omega ^ 2 * s) - K) := by
    rw [neg_sub]
    congr 1
    ext p q
    by_cases hpq : p = q
    · subst hpq; simp [Matrix.scalar_apply]
    · simp [Matrix.scalar_apply, Matrix.diagonal_apply_ne _ hpq]
  rw [this, Matrix.det_neg]
  exact mul_ne_zero (pow_ne_zero _ (by norm_num)) hs

/-- C112 is false: on every grid with at least one cell there are a source, an overlap and a pixelated shape with real permittivities for
which the backward pass returns something else than the gradient (four times the gradient). -/
theorem goos_pixels_gradient_false {sh : Shape} {c : SimCfg sh} (h : GoodSim c) (hn : 0 < sh.size) :
    ∃ (J w : VField sh.size) (s : ℝ) (mats : Fin 3 → Nat → Nat → ℝ) (G : Fin 1 → ℝ),
      goosBackward { c with J := J } (fun _ => (s : ℂ)) mats 1 (fun _ : Fin 1 => w) (fun _ : Fin 1 => 0) (fun _ => 1 / 2) = some G ∧
      ¬ StructGrad (fun z' : Fin 1 → ℝ =>
        ((goosEval { c with J := J } (fun _ : Fin 1 => w) (renderEval (fun _ => (s : ℂ)) mats 1 z')).getD 0 0).re) (fun _ => 0) G ∧
      StructGrad (fun z' : Fin 1 → ℝ =>
        ((goosEval { c with J := J } (fun _ : Fin 1 => w) (renderEval (fun _ => (s : ℂ)) mats 1 z')).getD 0 0).re) (fun _ => 0)
        (fun j => G j / 4) := by
  obtain ⟨s, A, hA, hu⟩ := exists_regular h
  obtain ⟨K, hK, hsolve⟩ := sim_system h
  rw [hK] at hA
  have hω : -Complex.I * c.omega ≠ 0 := by
    refine mul_ne_zero (neg_ne_zero.2 Complex.I_ne_zero) fun h0 => ?_
    have := omega_pos (c := c) h.wlen
    rw [h0] at this
    exact lt_irrefl _ this
  let p0 : Fin 3 × Fin sh.size := (0, ⟨0, hn⟩)
  let x : VField sh.size := Pi.single p0 1
  let y : VField sh.size := Pi.single p0 Complex.I
  let J : VField sh.size := (-Complex.I * c.omega)⁻¹ • (A *ᵥ x)
  let Ja : VField sh.size := (-Complex.I * c.omega)⁻¹ • (Aᴴ *ᵥ y)
  let w : VField sh.size := fun p => 2 * star (Ja p)
  let mats : Fin 3 → Nat → Nat → ℝ := fun a i _ => if a = 0 ∧ i = 0 then 1 else 0
  let c' : SimCfg sh := { c with J := J }
  have h' : GoodSim c' := ⟨h.shape, h.alloc, h.grid, h.layers, h.wlen, h.exact⟩
  have hz0 : renderEval (fun _ => (s : ℂ)) mats 1 (fun _ : Fin 1 => (0 : ℝ)) = fun _ : Fin 3 × Fin sh.size => (s : ℂ) := by
    funext p
    simp [renderEval, Render.pixEval, pixelValues]
  have hAeq : K - c.omega ^ 2 • Matrix.diagonal (fun _ => (s : ℂ)) = A := Option.some.inj hA
  -- the field and the adjoint field
  have hfield : simFields c' (fun _ => (s : ℂ)) = some x := by
    obtain ⟨f, hf1, hf2⟩ := hsolve (fun _ => (s : ℂ)) J false
    rw [hAeq] at hf2
    have := solves_unique hu hf2
    have hx : f = x := by
      rw [this]
      show A⁻¹ *ᵥ ((-Complex.I * c.omega) • ((-Complex.I * c.omega)⁻¹ • (A *ᵥ x))) = x
      rw [smul_smul, mul_inv_cancel₀ hω, one_smul, Matrix.mulVec_mulVec, Matrix.nonsing_inv_mul _ hu, Matrix.one_mulVec]
    rw [← hx]
    exact hf1
  have hsrc : goosAdjointSource (fun _ : Fin 1 => w) (fun _ => (1 / 2 : ℂ)) = Ja := by
    funext p
    simp [goosAdjointSource, w, List.finRange_succ]
  have hadj : c'.solve (fun _ => (s : ℂ)) Ja true = some y := by
    obtain ⟨f, hf1, hf2⟩ := hsolve (fun _ => (s : ℂ)) Ja true
    rw [hAeq] at hf2
    have h1 := solves_adjoint hu hf2
    have h2 : Aᴴ *ᵥ f = Aᴴ *ᵥ y := by
      rw [h1]
      show (-Complex.I * c.omega) • ((-Complex.I * c.omega)⁻¹ • (Aᴴ *ᵥ y)) = _
      rw [smul_smul, mul_inv_cancel₀ hω, one_smul]
    have hf : f = y := by
      refine mulVec_cancel (P := Aᴴ) (Q := (Aᴴ)⁻¹) ?_ h2
      exact Matrix.nonsing_inv_mul _ (unit_conjTranspose hu)
    rw [← hf]
    exact hf1
  -- the gradient
  let G0 : VField sh.size := fun p => -Complex.I * c.omega * star (y p) * x p
  have hgrad : goosGrad c' (fun _ : Fin 1 => w) x (fun _ => (s : ℂ)) (fun _ => 1 / 2) false = some G0 := by
    rw [goosGrad, hsrc, hadj]
    rfl
  have hG0 : ∀ p, G0 p = if p = p0 then -c.omega else 0 := by
    intro p
    by_cases hp : p = p0
    · subst hp
      simp only [G0, x, y, Pi.single_eq_same, if_pos]
      simp
      rw [mul_comm Complex.I, mul_assoc, Complex.I_mul_I]
      ring
    · simp [G0, x, y, hp]
  have hwA : waveOp c' (renderEval (fun _ => (s : ℂ)) mats 1 (fun _ : Fin 1 => (0 : ℝ))) = some A := by
    rw [hz0]
    show waveOp c _ = _
    rw [hK, hAeq]
  let L : (Fin 1 → ℂ) →L[ℝ] ℝ := Complex.reCLM.comp (ContinuousLinearMap.proj (R := ℝ) (φ := fun _ : Fin 1 => ℂ) 0)
  obtain ⟨P, hP1, hP2, hP3⟩ := goos_pixels_gradient h' (fun _ => (s : ℂ)) mats 1 (fun _ : Fin 1 => w) (fun _ : Fin 1 => (0 : ℝ)) hwA hu
    (fun o => (o 0).re) (fun _ => 1 / 2) L (by
      intro v
      simp [L])
    (fun o _ => L.hasFDerivAt)
  have hback : goosBackward c' (fun _ => (s : ℂ)) mats 1 (fun _ : Fin 1 => w) (fun _ : Fin 1 => (0 : ℝ)) (fun _ => 1 / 2)
      = some (renderGrad mats 1 G0) := by
    rw [goosBackward, hz0, hfield, Option.bind_some, hgrad, Option.map_some]
  have hpart : ∀ a (j : Fin 1), part mats 1 G0 a j = if a = 0 then -2 * c.omega.re else 0 := by
    intro a j
    rw [part_eq]
    by_cases ha : a = 0
    · subst ha
      rw [Finset.sum_eq_single ⟨0, hn⟩]
      · rw [hG0, if_pos rfl]
        simp [renderMat, mats]
      · intro i _ hi
        rw [hG0, if_neg (by intro hc; apply hi; exact (Prod.mk.inj hc).2)]
        simp
      · simp
    · rw [if_neg ha]
      refine Finset.sum_eq_zero fun i _ => ?_
      rw [hG0, if_neg (by intro hc; apply ha; exact (Prod.mk.inj hc).1)]
      simp
  have hval : ∀ j : Fin 1, renderGrad mats 1 G0 j = 4 * (-2 * c.omega.re) := by
    intro j
    rw [renderGrad_eq, hpart, hpart, hpart]
    simp
  have hωre : c.omega.re ≠ 0 := by
    have := omega_pos (c := c) h.wlen
    intro h0
    apply hω
    have : c.omega = 0 := by
      apply Complex.ext
      · simpa using h0
      · simp [SimCfg.omega]
    rw [this, mul_zero]
  -- compare the contributions
  have htrue : StructGrad (fun z' : Fin 1 → ℝ =>
      ((goosEval c' (fun _ : Fin 1 => w) (renderEval (fun _ => (s : ℂ)) mats 1 z')).getD 0 0).re) (fun _ => 0)
      (fun j => renderGrad mats 1 G0 j / 4) := by
    have hF : FieldGrad (fun e => ((goosEval c' (fun _ : Fin 1 => w) e).getD 0 0).re)
        (renderEval (fun _ => (s : ℂ)) mats 1 (fun _ : Fin 1 => (0 : ℝ))) (fun p => 2 * G0 p) := by
      obtain ⟨fields, G, h1, h2, L', h3, h4⟩ := goos_grad_exact h' (fun _ : Fin 1 => w)
        (renderEval (fun _ => (s : ℂ)) mats 1 (fun _ : Fin 1 => (0 : ℝ))) hwA hu (fun o => (o 0).re) (fun _ => 1 / 2) L (by
          intro v
          simp [L]) (fun o _ => L.hasFDerivAt)
      rw [hz0, hfield] at h1
      cases h1
      rw [hz0, hgrad] at h2
      cases h2
      refine ⟨L', fun v => ?_, h4⟩
      rw [h3]
      refine Finset.sum_congr rfl fun p _ => ?_
      show 2 * (G0 p * v p).re = (2 * G0 p * v p).re
      rw [mul_assoc 2, show (2 : ℂ) = ((2 : ℝ) : ℂ) by norm_num, Complex.re_ofReal_mul]
    rw [renderEval_eq] at hF
    have := epsilon_gradient hF
    simp only [← renderEval_eq] at this
    refine structGrad_congr this ?_
    funext j
    have : epsilonGrad (renderMat mats 1) (fun p => 2 * G0 p) j
        = part mats 1 G0 0 j + part mats 1 G0 1 j + part mats 1 G0 2 j := by
      simp only [part_eq, epsilonGrad, vecMul, dotProduct, Fintype.sum_prod_type, Fin.sum_univ_three, Complex.add_re, Complex.re_sum]
    rw [this, hpart, hpart, hpart, hval]
    simp
    ring
  refine ⟨J, w, s, mats, renderGrad mats 1 G0, hback, ?_, htrue⟩
  intro hbad
  have := congrFun (structGrad_unique hbad htrue) 0
  rw [hval] at this
  apply hωre
  linarith

/-! ### The hypotheses are met -/

/-- A source, an overlap that is not dark and a permittivity with a field along the third axis, as `goos_pixels_gradient_partial` and
`goos_power_gradient` assume. -/
example : ∃ (c : SimCfg ![2, 2, 2]) (base w : VField (Shape.size ![2, 2, 2])) (mats : Fin 3 → Nat → Nat → ℝ)
    (A : Mat3 (Shape.size ![2, 2, 2])) (fields : VField (Shape.size ![2, 2, 2])) (o : Fin 1 → ℂ),
    GoodSim c ∧ mats 2 0 0 ≠ 0 ∧ waveOp c (renderEval base mats 1 (fun _ : Fin 1 => 0)) = some A ∧ IsUnit A.det ∧
    simFields c (renderEval base mats 1 (fun _ : Fin 1 => 0)) = some fields ∧ (∀ i, fields (0, i) = 0 ∧ fields (1, i) = 0) ∧ fields ≠ 0 ∧
    goosEval c (fun _ : Fin 1 => w) (renderEval base mats 1 (fun _ : Fin 1 => 0)) = some o ∧ ∀ i, o i ≠ 0 := by
  have h := eightCells_good 0
  obtain ⟨s, A, hA, hu⟩ := exists_regular h
  obtain ⟨K, hK, hsolve⟩ := sim_system h
  rw [hK] at hA
  have hω : -Complex.I * (eightCells 0).omega ≠ 0 := by
    refine mul_ne_zero (neg_ne_zero.2 Complex.I_ne_zero) fun h0 => ?_
    have := omega_pos (c := eightCells 0) h.wlen
    rw [h0] at this
    exact lt_irrefl _ this
  have hAeq : K - (eightCells 0).omega ^ 2 • Matrix.diagonal (fun _ => (s : ℂ)) = A := Option.some.inj hA
  let p0 : Fin 3 × Fin (Shape.size ![2, 2, 2]) := (2, ⟨0, by decide⟩)
  let x : VField (Shape.size ![2, 2, 2]) := Pi.single p0 1
  let J : VField (Shape.size ![2, 2, 2]) := (-Complex.I * (eightCells 0).omega)⁻¹ • (A *ᵥ x)
  have hz0 : renderEval (fun _ => (s : ℂ)) (fun _ _ _ => 1) 1 (fun _ : Fin 1 => (0 : ℝ))
      = fun _ : Fin 3 × Fin (Shape.size ![2, 2, 2]) => (s : ℂ) := by
    funext p
    simp [renderEval, Render.pixEval, pixelValues]
  have hfield : simFields (eightCells J) (fun _ => (s : ℂ)) = some x := by
    obtain ⟨f, hf1, hf2⟩ := hsolve (fun _ => (s : ℂ)) J false
    rw [hAeq] at hf2
    have := solves_unique hu hf2
    have hx : f = x := by
      rw [this]
      show A⁻¹ *ᵥ ((-Complex.I * (eightCells 0).omega) • ((-Complex.I * (eightCells 0).omega)⁻¹ • (A *ᵥ x))) = x
      rw [smul_smul, mul_inv_cancel₀ hω, one_smul, Matrix.mulVec_mulVec, Matrix.nonsing_inv_mul _ hu, Matrix.one_mulVec]
    rw [← hx]
    exact hf1
  refine ⟨eightCells J, fun _ => (s : ℂ), x, fun _ _ _ => 1, A, x, fun _ => 1, eightCells_good J, one_ne_zero, ?_, hu, ?_, ?_, ?_, ?_, ?_⟩
  · rw [hz0]
    show waveOp (eightCells 0) _ = _
    rw [hK, hAeq]
  · rw [hz0, hfield]
  · intro i
    simp [x, p0]
  · intro h0
    have := congrFun h0 p0
    simp [x] at this
  · rw [hz0, goosEval, hfield]
    simp [x, overlapEval, Pi.single_apply]
  · simp

end Verif.Fdfd
