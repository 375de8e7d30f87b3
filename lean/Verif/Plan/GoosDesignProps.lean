import Verif.Plan.GoosDesign
import Verif.Plan.InvGradientProps
import Verif.Fdfd.GoosChainProps
import Verif.Cubic.CreatorProps
/-
C125: the gradients of a goos plan are those of its objective, from the variable of the shape to the objective: when they are,
and that they can point the wrong way otherwise.
-/
set_option linter.unusedVariables false
namespace Verif.Plan.Goos
open Verif.Plan.Inv Verif.Cubic Verif.Fdfd Matrix

variable {m : Nat}

/-! ### Specification -/

/-- What the gradient needs for the values `s` of the pixels: systems that can be solved, overlaps that are not zero, nodes on top that
report the derivatives of what they compute. -/
structure GoosFn.Good {sh : Shape} (o : GoosFn sh m) (s : List ℝ) : Prop where
  sim : ∀ i, GoodSim (o.sims i).c
  length : s.length = m
  solvable : ∀ i, ∃ A, waveOp (o.sims i).c (renderEval (o.sims i).base (o.sims i).mats (o.sims i).contrast
    fun j : Fin m => s.getD j 0) = some A ∧ IsUnit A.det
  lit : ∀ i a, (o.sims i).mags s = some a → ∀ j, a j ≠ 0
  top : ∀ a, o.mags s = some a → ∃ L : ((i : Fin o.q) → Fin (o.sims i).k → ℝ) →L[ℝ] ℝ,
    (∀ v, L v = ∑ i, ∑ j, o.dΦ a i j * v i j) ∧ HasFDerivAt o.Φ L a

/-- The simulated fields point along the third axis. -/
def GoosFn.Flat {sh : Shape} (o : GoosFn sh m) (s : List ℝ) : Prop :=
  ∀ i fields, simFields (o.sims i).c (renderEval (o.sims i).base (o.sims i).mats (o.sims i).contrast
    fun j : Fin m => s.getD j 0) = some fields → ∀ x, fields (0, x) = 0 ∧ fields (1, x) = 0

/-! ### Simulations -/

theorem GoosFn.Good.regular {sh : Shape} {o : GoosFn sh m} {s : List ℝ} (h : o.Good s) (hflat : o.Flat s) : RegularAt o.fn s := by
  have htot : ∀ i e, ∃ E, simFields (o.sims i).c e = some E := fun i e => by
    obtain ⟨K, hK, hsolve⟩ := sim_system (h.sim i)
    obtain ⟨E, hE, -⟩ := hsolve e (o.sims i).c.J false
    exact ⟨E, hE⟩
  set z : Fin m → ℝ := fun j => s.getD j 0 with hz
  let ev : (Fin m → ℝ) → (i : Fin o.q) → Option (Fin (o.sims i).k → ℂ) := fun z i =>
    goosEval (o.sims i).c (o.sims i).ws (renderEval (o.sims i).base (o.sims i).mats (o.sims i).contrast z)
  have hev : ∀ z i, ∃ a, ev z i = some a := by
    intro z i
    obtain ⟨E, hE⟩ := htot i (renderEval (o.sims i).base (o.sims i).mats (o.sims i).contrast z)
    exact ⟨fun k => overlapEval ((o.sims i).ws k) E, by simp only [ev, goosEval, hE, Option.map_some]⟩
  let mg : (Fin m → ℝ) → (i : Fin o.q) → Fin (o.sims i).k → ℝ := fun z i j => ‖(ev z i).getD 0 j‖
  have hmi : ∀ (s' : List ℝ) i, s'.length = m → (o.sims i).mags s' = some (mg (fun j => s'.getD j 0) i) := by
    intro s' i hs'
    obtain ⟨a, ha⟩ := hev (fun j => s'.getD j 0) i
    have ha' : goosEval (o.sims i).c (o.sims i).ws (renderEval (o.sims i).base (o.sims i).mats (o.sims i).contrast
      fun j : Fin m => s'.getD j 0) = some a := ha
    simp only [GoosSim.mags, if_pos hs', mg, ha, ha', Option.map_some, Option.getD_some]
  have hmags : ∀ s' : List ℝ, s'.length = m → o.mags s' = some (mg fun j => s'.getD j 0) := by
    intro s' hs'
    rw [GoosFn.mags, dif_pos (fun i => by rw [hmi s' i hs']; rfl)]
    congr 1
    funext i
    simp only [hmi s' i hs', Option.get_some]
  have hm := hmags s h.length
  have hback : ∀ i (w : Fin (o.sims i).k → ℝ), ∃ g, (o.sims i).backward s w = some g ∧
      StructGrad (fun z => ∑ j, w j * mg z i j) z g := by
    intro i w
    obtain ⟨A, hA, hu⟩ := h.solvable i
    obtain ⟨a, ha⟩ := hev z i
    have hlit : ∀ j, a j ≠ 0 := by
      intro j h0
      refine h.lit i _ (hmi s i h.length) j ?_
      show ‖(ev z i).getD 0 j‖ = 0
      rw [ha, Option.getD_some, h0, norm_zero]
    obtain ⟨g, L, b1, b2, b3⟩ := abs_backward_gradient a hlit (fun a => ∑ j, w j * a j) w
      ⟨∑ j, w j • ContinuousLinearMap.proj (R := ℝ) (φ := fun _ => ℝ) j, by
        intro v; simp, by
        have : (fun a : Fin (o.sims i).k → ℝ => ∑ j, w j * a j) =
            fun a => (∑ j, w j • ContinuousLinearMap.proj (R := ℝ) (φ := fun _ => ℝ) j) a := by
          funext a; simp
        rw [this]
        exact ContinuousLinearMap.hasFDerivAt _⟩
    obtain ⟨G, c1, c2⟩ := goos_pixels_gradient_partial (h.sim i) (o.sims i).base (o.sims i).mats (o.sims i).contrast (o.sims i).ws z hA hu
      (fun a => ∑ j, w j * ‖a j‖) g L b2 (fun a' ha' => by
        have : some a' = some a := ha'.symm.trans ha
        cases this
        exact b3) (hflat i)
    refine ⟨G, ?_, c2⟩
    have ha' : goosEval (o.sims i).c (o.sims i).ws (renderEval (o.sims i).base (o.sims i).mats (o.sims i).contrast z) = some a := ha
    rw [GoosSim.backward, goosAbsBackward, ha', Option.bind_some, b1, Option.bind_some, c1]
  have hone : ∀ i j, ∃ L : (Fin m → ℝ) →L[ℝ] ℝ, HasFDerivAt (fun z => mg z i j) L z := by
    intro i j
    obtain ⟨g, -, L, -, hd⟩ := hback i (fun j' => if j' = j then 1 else 0)
    refine ⟨L, ?_⟩
    have : (fun z => ∑ j', (if j' = j then (1 : ℝ) else 0) * mg z i j') = fun z => mg z i j := by
      funext z; simp
    rwa [this] at hd
  choose L hL using hone
  have hall : HasFDerivAt mg (ContinuousLinearMap.pi fun i => ContinuousLinearMap.pi fun j => L i j) z := by
    rw [hasFDerivAt_pi]
    intro i
    rw [hasFDerivAt_pi]
    exact fun j => hL i j
  choose G hG1 hG2 using fun i => hback i (o.dΦ (mg z) i)
  obtain ⟨LΦ, t1, t2⟩ := h.top _ hm
  have hGv : ∀ i v, ∑ r, G i r * v r = ∑ j, o.dΦ (mg z) i j * L i j v := by
    intro i v
    obtain ⟨L', a, b⟩ := hG2 i
    have h2 : HasFDerivAt (fun y => ∑ j, o.dΦ (mg z) i j * mg y i j) (∑ j, o.dΦ (mg z) i j • L i j) z :=
      HasFDerivAt.fun_sum fun j _ => (hL i j).const_mul (o.dΦ (mg z) i j)
    rw [← a, b.unique h2]
    simp
  refine ⟨((List.finRange o.q).map G).sum, fun y => o.Φ (mg y), ?_, ?_, ?_⟩
  · simp only [GoosFn.fn, hm, Option.bind_some]
    rw [foldlM_sum _ G (fun i => hG1 i), zero_add]
  · intro s' hs'
    simp only [GoosFn.fn, hmags s' hs', Option.map_some]
  · refine ⟨LΦ.comp (ContinuousLinearMap.pi fun i => ContinuousLinearMap.pi fun j => L i j), ?_, ?_⟩
    · intro v
      rw [ContinuousLinearMap.comp_apply, t1]
      simp only [ContinuousLinearMap.coe_pi']
      rw [← List.ofFn_eq_map, List.sum_ofFn]
      simp only [Finset.sum_apply, Finset.sum_mul]
      rw [Finset.sum_comm]
      exact Finset.sum_congr rfl fun i _ => (hGv i v).symm
    · exact HasFDerivAt.comp (g := o.Φ) z t2 hall

/-! ### Shapes -/

/-- For a function of the pixels that reports its gradient, the gradient of the plan with respect to a variable that holds the pixels. -/
theorem pixel_gradient (o : StructFn m) (v : List ℝ) (hv : v.length = m) (ho : RegularAt o v) :
    ∃ γ, pixelGrad o v = some γ ∧ IsGradientOn (fun y => (pixelValue o y).map fun r => [r]) γ v {y | y.length = m} := by
  obtain ⟨g, F, g1, g2, L, hL, hF⟩ := ho
  refine ⟨List.ofFn g, by simp [pixelGrad, g1], by simp [hv], fun d T hd h0 hT => ?_⟩
  have hlen : ∀ t, (line v d t).length = m := fun t => by simp [line, hd, hv]
  refine ⟨fun t => F fun j => (line v d t).getD j 0, fun t _ => by simp [pixelValue, g2 _ (hlen t)], ?_⟩
  have hc : HasDerivWithinAt (fun t (j : Fin m) => (line v d t).getD j 0) (fun j : Fin m => d.getD j 0) T 0 := by
    refine hasDerivWithinAt_pi.2 fun j => ?_
    have hj := j.isLt
    have hl : (fun t => (line v d t).getD j 0) = fun t => v.getD j 0 + t * d.getD j 0 := by
      funext t
      rw [line, List.getD_eq_getElem _ _ (by simp; omega), List.getD_eq_getElem _ _ (by omega), List.getD_eq_getElem _ _ (by omega)]
      simp
    rw [hl]
    have := ((hasDerivAt_id (0 : ℝ)).mul_const (d.getD j 0)).const_add (v.getD j 0)
    simp only [one_mul, id] at this
    exact this.hasDerivWithinAt
  have hF' : HasFDerivAt F L (fun j : Fin m => (line v d 0).getD j 0) := by rw [line_zero v d hd]; exact hF
  have := hF'.comp_hasDerivWithinAt (0 : ℝ) hc
  rw [hL] at this
  have e : ∑ i ∈ Finset.range v.length, (List.ofFn g).getD i 0 * d.getD i 0 = ∑ j : Fin m, g j * d.getD j 0 := by
    rw [hv, Finset.sum_range]
    refine Finset.sum_congr rfl fun j _ => ?_
    rw [List.getD_eq_getElem _ _ (by simp), List.getElem_ofFn]
  rw [e]
  exact this

theorem gradPixels_rowMul {A : SpMat ℝ} (hA : A.rows = m) (g : Fin m → ℝ) :
    matVec A.transpose (List.ofFn g) = .ok (rowMul g A) := by
  have h1 : A.transpose.cols = (List.ofFn g).length := by simp [SpMat.transpose, hA]
  rw [matVec, if_pos h1, rowMul]
  congr 1
  refine List.map_congr_left fun j _ => ?_
  unfold SpMat.mulVec
  show ∑ i ∈ Finset.range A.rows, A.ent i j * (List.ofFn g).getD i 0 = _
  rw [hA, Finset.sum_range]
  refine Finset.sum_congr rfl fun i _ => ?_
  rw [List.getD_eq_getElem _ _ (by simp), List.getElem_ofFn, mul_comm]

/-- The node of a cubic shape computes what the parametrization behind it computes. -/
theorem cubic_node (P : CubicParam) (o : StructFn m) (v : List ℝ) :
    (cubicValue P o v).map (fun r => [r]) = (cubicClass.fromVector P v).bind (evalFun cubicClass o) ∧
    (∀ γ, (cubicClass.fromVector P v).bind (evalGrad cubicClass o) = some γ → cubicGrad P o v = some γ) := by
  have hf : cubicClass.fromVector P v = some (P.fromVector v) := rfl
  have hs : cubicClass.getStructure (P.fromVector v) = (evalPixels P v).toOption := rfl
  constructor
  · rw [hf, Option.bind_some, evalFun, hs, cubicValue]
    cases (evalPixels P v).toOption with
    | none => rfl
    | some s => rfl
  · intro γ hγ
    rw [hf, Option.bind_some, evalGrad, hs] at hγ
    rw [cubicGrad]
    cases he : (evalPixels P v).toOption with
    | none => rw [he] at hγ; cases hγ
    | some s =>
      rw [he, Option.bind_some] at hγ
      rw [Option.bind_some]
      cases hg : o.grad s with
      | none => rw [hg] at hγ; cases hγ
      | some g =>
        rw [hg, Option.bind_some] at hγ
        rw [Option.bind_some]
        have hc : cubicClass.calculateGradient (P.fromVector v) = (P.fromVector v).calculateGradient.toOption := rfl
        rw [hc] at hγ
        rw [gradPixels]
        cases hA : (P.fromVector v).calculateGradient with
        | error e => rw [hA] at hγ; cases hγ
        | ok A =>
          rw [hA] at hγ
          have hγ' : (if A.rows = m then some (rowMul g A) else none) = some γ := hγ
          split at hγ'
          · rename_i hr
            cases hγ'
            show (matVec A.transpose (List.ofFn g)).toOption = _
            rw [gradPixels_rowMul hr]
            rfl
          · cases hγ'

/-- The node keeps one parametrization object for all evaluations. What it computes does not depend on the values it was evaluated with
before. -/
theorem cubic_history (P : CubicParam) (o : StructFn m) (us : List (List ℝ)) (v : List ℝ) :
    cubicValue (us.foldl (fun P u => P.fromVector u) P) o v = cubicValue P o v ∧
    cubicGrad (us.foldl (fun P u => P.fromVector u) P) o v = cubicGrad P o v := by
  induction us generalizing P with
  | nil => exact ⟨rfl, rfl⟩
  | cons u us ih =>
    obtain ⟨a, b⟩ := ih (P.fromVector u)
    exact ⟨a, b⟩

/-- For a function of the pixels that reports its gradient, the gradient of the plan with respect to the variable of a cubic shape. -/
theorem cubic_gradient {nx ny : Nat} {u : ℝ} {sym : Bool × Bool} {p : Nat × Nat} {rand : Nat → ℝ} {P : CubicParam}
    (hnx : 0 < nx) (hny : 0 < ny) (hu : 0 < u) (hP : createCubicParam nx ny u sym p rand = .ok P) (o : StructFn (nx * ny))
    (v s : List ℝ) (hv : v ∈ box P.toVector.length 0 1) (hs : evalPixels P v = .ok s) (ho : RegularAt o s) :
    ∃ γ, cubicGrad P o v = some γ ∧
      IsGradientOn (fun y => (cubicValue P o y).map fun r => [r]) γ v (box P.toVector.length 0 1) := by
  obtain ⟨r, Q, hQ, rfl, E1, E2, hl⟩ := create_spec hnx hny hu hP
  obtain ⟨hr, hc, hlo, hhi, _⟩ := onGrids_spec hnx hny hu E1 E2 hQ
  have hc' : (Q.setK 0).vec2f.cols = (Q.setK 0).toVector.length := hc.trans hl.symm
  have hb : box (Q.setK 0).vec2f.cols (Q.setK 0).lower (Q.setK 0).upper = box (Q.setK 0).toVector.length 0 1 := by
    rw [hc']
    show box _ Q.lower Q.upper = _
    rw [hlo, hhi]
  have hsm := cubic_smooth (Q.setK 0) v (by rw [hb]; exact hv)
  rw [hb, show (Q.setK 0).vec2f.rows = nx * ny from hr] at hsm
  obtain ⟨γ, a, b⟩ := chain_gradient cubicClass o (Q.setK 0) v _ hv hsm s (by
    show (evalPixels (Q.setK 0) v).toOption = _
    rw [hs]
    rfl) ho
  refine ⟨γ, (cubic_node _ o v).2 γ a, ?_⟩
  have : (fun y => (cubicValue (Q.setK 0) o y).map fun r => [r]) =
      fun y => (cubicClass.fromVector (Q.setK 0) y).bind (evalFun cubicClass o) := funext fun y => (cubic_node _ o y).1
  rw [this]
  exact b

/-! ### C125 -/

/-- **C125**, shapes whose pixels are the variable. Missing: fields that do not point along the third axis
(`pixel_descent_ascends`). -/
theorem pixel_design_gradient_partial {sh : Shape} (o : GoosFn sh m) (v : List ℝ) (ho : o.Good v) (hflat : o.Flat v) :
    ∃ γ, pixelGrad o.fn v = some γ ∧
      IsGradientOn (fun y => (pixelValue o.fn y).map fun r => [r]) γ v {y | y.length = m} :=
  pixel_gradient o.fn v ho.length (ho.regular hflat)

/-- **C125**, cubic shapes: for the values of the variable within its bounds, whatever the shape was evaluated with before.
Missing: fields that do not point along the third axis. -/
theorem cubic_shape_gradient_partial {sh : Shape} {nx ny : Nat} {u : ℝ} {sym : Bool × Bool} {p : Nat × Nat} {rand : Nat → ℝ}
    {P : CubicParam} (hnx : 0 < nx) (hny : 0 < ny) (hu : 0 < u) (hP : createCubicParam nx ny u sym p rand = .ok P)
    (o : GoosFn sh (nx * ny)) (v : List ℝ) (hv : v ∈ box P.toVector.length 0 1)
    (ho : ∀ s, evalPixels P v = .ok s → o.Good s ∧ o.Flat s) (us : List (List ℝ)) :
    ∃ γ, cubicGrad (us.foldl (fun P u => P.fromVector u) P) o.fn v = some γ ∧
      IsGradientOn (fun y => (cubicValue (us.foldl (fun P u => P.fromVector u) P) o.fn y).map fun r => [r]) γ v
        (box P.toVector.length 0 1) := by
  obtain ⟨s, hs, -, -⟩ := goos_cubic_symmetric hnx hny hu hP v hv.1
  obtain ⟨g1, g2⟩ := ho s hs
  obtain ⟨γ, a, b⟩ := cubic_gradient hnx hny hu hP o.fn v s hv hs (g1.regular g2)
  refine ⟨γ, by rw [(cubic_history P o.fn us v).2, a], ?_⟩
  have : (fun y => (cubicValue (us.foldl (fun P u => P.fromVector u) P) o.fn y).map fun r => [r]) =
      fun y => (cubicValue P o.fn y).map fun r => [r] := funext fun y => by rw [(cubic_history P o.fn us y).1]
  rw [this]
  exact b

/-! ### The wrong way -/

/-- Permittivities as large as wanted for which the fields are determined. -/
theorem exists_regular_above {sh : Shape} {c : SimCfg sh} (h : GoodSim c) (K : Mat3 sh.size) (M : ℝ) :
    ∃ s : ℝ, M < s ∧ IsUnit (K - c.omega ^ 2 • Matrix.diagonal (fun _ => (s : ℂ))).det := by
  classical
  have hω : c.omega ^ 2 ≠ 0 := by
    refine pow_ne_zero 2 fun h0 => ?_
    have := omega_pos (c := c) h.wlen
    rw [h0] at this
    exact lt_irrefl _ this
  have hinj : Function.Injective fun s : ℝ => c.omega ^ 2 * (s : ℂ) := fun a b hab =>
    Complex.ofReal_injective (mul_left_cancel₀ hω hab)
  obtain ⟨y, hy⟩ := ((Set.Ioi_infinite M).image hinj.injOn).exists_notMem_finset K.charpoly.roots.toFinset
  obtain ⟨⟨s, hs, rfl⟩, hy2⟩ := hy
  refine ⟨s, hs, ?_⟩
  rw [Multiset.mem_toFinset, Polynomial.mem_roots K.charpoly_monic.ne_zero, Polynomial.IsRoot, Matrix.eval_charpoly] at hy2
  rw [isUnit_iff_ne_zero]
  have : K - c.omega ^ 2 • Matrix.diagonal (fun _ => (s : ℂ)) = -(Matrix.scalar (Fin 3 × Fin sh.size) (c.omega ^ 2 * s) - K) := by
    rw [neg_sub]
    congr 1
    ext p q
    by_cases hpq : p = q
    · subst hpq; simp [Matrix.scalar_apply]
    · simp [Matrix.scalar_apply, Matrix.diagonal_apply_ne _ hpq]
  rw [this, Matrix.det_neg]
  exact mul_ne_zero (pow_ne_zero _ (by norm_num)) hy2

/-- A source and an overlap for given fields `x` and adjoint fields `y`. -/
theorem planted {sh : Shape} {c : SimCfg sh} (h : GoodSim c) {K : Mat3 sh.size}
    (hK : ∀ eps, waveOp c eps = some (K - c.omega ^ 2 • Matrix.diagonal eps))
    (hsolve : ∀ eps J adj, ∃ x, c.solve eps J adj = some x ∧
      ((∃ y, Solves (K - c.omega ^ 2 • Matrix.diagonal eps) c.omega J adj y) →
        Solves (K - c.omega ^ 2 • Matrix.diagonal eps) c.omega J adj x))
    (e : VField sh.size) (hu : IsUnit (K - c.omega ^ 2 • Matrix.diagonal e).det) (x y : VField sh.size) :
    ∃ J w : VField sh.size,
      simFields { c with J := J } e = some x ∧
      overlapEval w x = 2 * (star ((-Complex.I * c.omega)⁻¹) * ∑ p, star (y p) * ((K - c.omega ^ 2 • Matrix.diagonal e) *ᵥ x) p) ∧
      goosGrad { c with J := J } (fun _ : Fin 1 => w) x e (fun _ => 1 / 2) false =
        some fun p => -Complex.I * c.omega * star (y p) * x p := by
  set A := K - c.omega ^ 2 • Matrix.diagonal e with hAdef
  have hω : -Complex.I * c.omega ≠ 0 := by
    refine mul_ne_zero (neg_ne_zero.2 Complex.I_ne_zero) fun h0 => ?_
    have := omega_pos (c := c) h.wlen
    rw [h0] at this
    exact lt_irrefl _ this
  let J : VField sh.size := (-Complex.I * c.omega)⁻¹ • (A *ᵥ x)
  let Ja : VField sh.size := (-Complex.I * c.omega)⁻¹ • (Aᴴ *ᵥ y)
  let w : VField sh.size := fun p => 2 * star (Ja p)
  refine ⟨J, w, ?_, ?_, ?_⟩
  · obtain ⟨f, hf1, hf2⟩ := hsolve e J false
    rw [← hAdef] at hf2
    have := solves_unique hu hf2
    have hx : f = x := by
      rw [this]
      show A⁻¹ *ᵥ ((-Complex.I * c.omega) • ((-Complex.I * c.omega)⁻¹ • (A *ᵥ x))) = x
      rw [smul_smul, mul_inv_cancel₀ hω, one_smul, Matrix.mulVec_mulVec, Matrix.nonsing_inv_mul _ hu, Matrix.one_mulVec]
    rw [← hx]
    exact hf1
  · have key : ∑ p, star ((Aᴴ *ᵥ y) p) * x p = ∑ p, star (y p) * (A *ᵥ x) p := by
      simp only [Matrix.mulVec, dotProduct, star_sum, star_mul', Matrix.conjTranspose_apply, star_star, Finset.sum_mul, Finset.mul_sum]
      rw [Finset.sum_comm]
      exact Finset.sum_congr rfl fun p _ => Finset.sum_congr rfl fun q _ => by ring
    rw [← key]
    simp only [overlapEval, w, Ja, Pi.smul_apply, smul_eq_mul, star_mul', Finset.mul_sum]
    exact Finset.sum_congr rfl fun p _ => by ring
  · have hsrc : goosAdjointSource (fun _ : Fin 1 => w) (fun _ => (1 / 2 : ℂ)) = Ja := by
      funext p
      simp [goosAdjointSource, w, List.finRange_succ]
    have hadj : SimCfg.solve { c with J := J } e Ja true = some y := by
      obtain ⟨f, hf1, hf2⟩ := hsolve e Ja true
      rw [← hAdef] at hf2
      have h1 := solves_adjoint hu hf2
      have h2 : Aᴴ *ᵥ f = Aᴴ *ᵥ y := by
        rw [h1]
        show (-Complex.I * c.omega) • ((-Complex.I * c.omega)⁻¹ • (Aᴴ *ᵥ y)) = _
        rw [smul_smul, mul_inv_cancel₀ hω, one_smul]
      have hf : f = y := by
        refine mulVec_cancel (P := Aᴴ) (Q := (Aᴴ)⁻¹) ?_ h2
        exact Matrix.nonsing_inv_mul _ (unit_conjTranspose hu)
      rw [← hf]
      exact hf1
    rw [goosGrad, hsrc, hadj]
    rfl

/-- The number that decides the size of the overlap. -/
theorem overlap_positive (W k0r k0i k2r k2i s : ℝ) (hW : 0 < W)
    (hs : (|k0r| + 1 + |(2 * k2i - k0i) * k0i| + |2 * k2r - k0r|) / W < s) :
    let β := -(2 * k2i - k0i) / (k0r - W * s)
    β * (k0r - W * s) + (2 * k2i - k0i) = 0 ∧ 0 < β * k0i - (2 * k2r - k0r - W * s) := by
  rw [div_lt_iff₀ hW] at hs
  have h1 := abs_nonneg ((2 * k2i - k0i) * k0i)
  have h2 := abs_nonneg (2 * k2r - k0r)
  have h3 := le_abs_self k0r
  have h4 := le_abs_self (2 * k2r - k0r)
  have h6 := abs_nonneg k0r
  have hneg : k0r - W * s < -1 := by linarith
  have hne : k0r - W * s ≠ 0 := by linarith
  refine ⟨by field_simp; ring, ?_⟩
  have hb : |(2 * k2i - k0i) * k0i / (k0r - W * s)| ≤ |(2 * k2i - k0i) * k0i| := by
    rw [abs_div]
    refine div_le_self (abs_nonneg _) ?_
    rw [abs_of_neg (by linarith)]
    linarith
  have h5 := (abs_le.1 hb).2
  have e : -(2 * k2i - k0i) / (k0r - W * s) * k0i = -((2 * k2i - k0i) * k0i / (k0r - W * s)) := by ring
  rw [e]
  linarith

theorem overlap_number (β a b c d ω s : ℂ) (hω : ω ≠ 0) (h : β * (a - ω ^ 2 * s) + (2 * d - b) = 0) :
    2 * (-Complex.I / ω * ((β - -Complex.I) * (a + b * Complex.I - ω ^ 2 * s) +
      2 * -Complex.I * (c + d * Complex.I - ω ^ 2 * s))) = 2 * (β * b - (2 * c - a - ω ^ 2 * s)) / ω := by
  have hI := Complex.I_sq
  field_simp
  linear_combination (-Complex.I) * h + (Complex.I * (2 * d - b) - (β * b - (2 * c - a - ω ^ 2 * s))) * hI

theorem overlap_number' (β ω s : ℝ) (k0 k2 : ℂ) (hω : ω ≠ 0) (h : β * (k0.re - ω ^ 2 * s) + (2 * k2.im - k0.im) = 0) :
    2 * (-Complex.I / ω * (star ((β : ℂ) - Complex.I) * (k0 - (ω : ℂ) ^ 2 * s) + star (2 * Complex.I) * (k2 - (ω : ℂ) ^ 2 * s))) =
      ((2 * (β * k0.im - (2 * k2.re - k0.re - ω ^ 2 * s)) / ω : ℝ) : ℂ) := by
  rw [show k0 - (ω : ℂ) ^ 2 * s = (k0.re : ℂ) + k0.im * Complex.I - (ω : ℂ) ^ 2 * s by rw [Complex.re_add_im],
    show k2 - (ω : ℂ) ^ 2 * s = (k2.re : ℂ) + k2.im * Complex.I - (ω : ℂ) ^ 2 * s by rw [Complex.re_add_im]]
  simp only [Complex.star_def, map_sub, map_mul, Complex.conj_I, Complex.conj_ofReal, map_ofNat]
  push_cast
  exact overlap_number _ _ _ _ _ _ _ (by exact_mod_cast hω) (by exact_mod_cast h)

set_option maxHeartbeats 1000000 in
/-- **C125** is false: on every grid with at least one cell there are a source, an overlap, a positive permittivity and a shape with one
pixel for which the gradient that the plan reports for the absolute value of the overlap points the wrong way. A step
against the reported gradient, however small, makes the objective larger. -/
theorem pixel_descent_ascends {sh : Shape} {c : SimCfg sh} (h : GoodSim c) (hn : 0 < sh.size) :
    ∃ (J w : VField sh.size) (s : ℝ) (mats : Fin 3 → Nat → Nat → ℝ), 0 < s ∧
      let o : GoosFn sh 1 := ⟨1, fun _ => ⟨{ c with J := J }, fun _ => (s : ℂ), mats, 1, 1, fun _ => w⟩, fun a => a 0 0, fun _ _ _ => 1⟩
      o.Good [0] ∧ ∃ γ r0 : ℝ, pixelGrad o.fn [0] = some [γ] ∧ pixelValue o.fn [0] = some r0 ∧
        ∃ ε > 0, ∀ t, 0 < t → t < ε → ∃ r, pixelValue o.fn [0 - t * γ] = some r ∧ r0 < r := by
  obtain ⟨K, hK, hsolve⟩ := sim_system h
  set ω := c.omega.re with hωdef
  have hωpos : 0 < ω := omega_pos (c := c) h.wlen
  have hωc : c.omega = (ω : ℂ) := by
    apply Complex.ext
    · simp [hωdef]
    · simp [SimCfg.omega]
  let p0 : Fin 3 × Fin sh.size := (0, ⟨0, hn⟩)
  let p2 : Fin 3 × Fin sh.size := (2, ⟨0, hn⟩)
  have hp : p0 ≠ p2 := by
    intro hc
    have := (Prod.mk.inj hc).1
    exact absurd this (by decide)
  let x : VField sh.size := Pi.single p0 1 + Pi.single p2 1
  let k0 := (K *ᵥ x) p0
  let k2 := (K *ᵥ x) p2
  have hW : 0 < ω ^ 2 := by positivity
  obtain ⟨s, hs, hu⟩ := exists_regular_above h K
    ((|k0.re| + 1 + |(2 * k2.im - k0.im) * k0.im| + |2 * k2.re - k0.re|) / ω ^ 2)
  obtain ⟨hβ, hpos⟩ := overlap_positive (ω ^ 2) k0.re k0.im k2.re k2.im s hW hs
  set β := -(2 * k2.im - k0.im) / (k0.re - ω ^ 2 * s) with hβdef
  have hs0 : 0 < s := by
    refine lt_of_le_of_lt ?_ hs
    positivity
  let y : VField sh.size := Pi.single p0 ((β : ℂ) - Complex.I) + Pi.single p2 (2 * Complex.I)
  obtain ⟨J, w, hx, how, hgr⟩ := planted h hK hsolve (fun _ => (s : ℂ)) hu x y
  let mats : Fin 3 → Nat → Nat → ℝ := fun a i _ => if (a = 0 ∨ a = 2) ∧ i = 0 then 1 else 0
  let c' : SimCfg sh := { c with J := J }
  have h' : GoodSim c' := ⟨h.shape, h.alloc, h.grid, h.layers, h.wlen, h.exact⟩
  have hz0 : renderEval (fun _ => (s : ℂ)) mats 1 (fun _ : Fin 1 => (0 : ℝ)) = fun _ : Fin 3 × Fin sh.size => (s : ℂ) := by
    funext p
    simp [renderEval, Render.pixEval, pixelValues]
  -- the overlap is a positive number
  have hx0 : x p0 = 1 := by simp [x, Pi.single_eq_of_ne hp]
  have hx2 : x p2 = 1 := by simp [x, Pi.single_eq_of_ne hp.symm]
  have hy0 : y p0 = (β : ℂ) - Complex.I := by simp [y, Pi.single_eq_of_ne hp]
  have hy2 : y p2 = 2 * Complex.I := by simp [y, Pi.single_eq_of_ne hp.symm]
  have hA0 : ((K - c.omega ^ 2 • Matrix.diagonal fun _ => (s : ℂ)) *ᵥ x) p0 = k0 - (ω : ℂ) ^ 2 * s := by
    rw [Matrix.sub_mulVec, Pi.sub_apply, Matrix.smul_mulVec, Pi.smul_apply, Matrix.mulVec_diagonal, hx0, hωc]
    simp [k0]
  have hA2 : ((K - c.omega ^ 2 • Matrix.diagonal fun _ => (s : ℂ)) *ᵥ x) p2 = k2 - (ω : ℂ) ^ 2 * s := by
    rw [Matrix.sub_mulVec, Pi.sub_apply, Matrix.smul_mulVec, Pi.smul_apply, Matrix.mulVec_diagonal, hx2, hωc]
    simp [k2]
  have hsum : ∑ p, star (y p) * ((K - c.omega ^ 2 • Matrix.diagonal fun _ => (s : ℂ)) *ᵥ x) p =
      star ((β : ℂ) - Complex.I) * (k0 - (ω : ℂ) ^ 2 * s) + star (2 * Complex.I) * (k2 - (ω : ℂ) ^ 2 * s) := by
    rw [← Finset.sum_subset (Finset.subset_univ {p0, p2}), Finset.sum_pair hp, hy0, hy2, hA0, hA2]
    intro p _ hpn
    simp only [Finset.mem_insert, Finset.mem_singleton, not_or] at hpn
    simp [y, hpn.1, hpn.2]
  set σ := 2 * (β * k0.im - (2 * k2.re - k0.re - ω ^ 2 * s)) / ω with hσ
  have hσpos : 0 < σ := by positivity
  have hov : overlapEval w x = (σ : ℂ) := by
    rw [how, hsum, hωc, hσ]
    have hω0 : (ω : ℂ) ≠ 0 := by exact_mod_cast hωpos.ne'
    have e1 : star ((-Complex.I * (ω : ℂ))⁻¹) = -Complex.I / ω := by
      rw [star_inv₀, star_mul']
      simp only [Complex.star_def, map_neg, Complex.conj_I, Complex.conj_ofReal, neg_neg]
      field_simp
      rw [Complex.I_sq]
      ring
    rw [e1]
    exact overlap_number' β ω s k0 k2 hωpos.ne' hβ
  -- the gradient that is reported and the gradient
  have hev : ∀ e : VField sh.size, ∃ a, goosEval c' (fun _ : Fin 1 => w) e = some a := by
    intro e
    obtain ⟨f, hf, -⟩ := hsolve e J false
    have hf' : simFields c' e = some f := hf
    exact ⟨fun _ => overlapEval w f, by rw [goosEval, hf', Option.map_some]⟩
  have hev0 : goosEval c' (fun _ : Fin 1 => w) (fun _ => (s : ℂ)) = some fun _ => (σ : ℂ) := by
    rw [goosEval, hx, Option.map_some, hov]
  have hσ0 : (σ : ℂ) ≠ 0 := by exact_mod_cast hσpos.ne'
  have habs : absBackward (fun _ : Fin 1 => (σ : ℂ)) (fun _ => 1) = some fun _ => 1 / 2 := by
    have h1 : Obj.goosAbsGrad (ι := Unit) true (fun (_ : Fin 1) (_ : Unit) => (σ : ℂ)) (fun _ => 1) = some fun _ _ => 1 / 2 := by
      have hn : ¬ ∃ _ : Unit, ‖(σ : ℂ)‖ = 0 := by simpa using hσpos.ne'
      simp only [Obj.goosAbsGrad, if_neg hn, if_true]
      congr 1
      funext _ _
      have : (‖(σ : ℂ)‖ : ℝ) = σ := by rw [Complex.norm_real, Real.norm_of_nonneg hσpos.le]
      simp only [this]
      simp [hσ0]
    rw [absBackward, if_pos (fun i => by rw [h1]; rfl)]
    congr 1
    funext i
    rw [h1]
    rfl
  obtain ⟨g, L, b1, b2, b3⟩ := abs_backward_gradient (fun _ : Fin 1 => (σ : ℂ)) (fun _ => hσ0) (fun a => a 0) (fun _ => 1)
    ⟨ContinuousLinearMap.proj (R := ℝ) (φ := fun _ : Fin 1 => ℝ) 0, by intro v; simp,
      ContinuousLinearMap.hasFDerivAt (ContinuousLinearMap.proj (R := ℝ) (φ := fun _ : Fin 1 => ℝ) 0)⟩
  rw [habs] at b1
  cases b1
  let G0 : VField sh.size := fun p => -Complex.I * c.omega * star (y p) * x p
  have hwA : waveOp c' (renderEval (fun _ => (s : ℂ)) mats 1 (fun _ : Fin 1 => (0 : ℝ))) =
      some (K - c.omega ^ 2 • Matrix.diagonal fun _ => (s : ℂ)) := by
    rw [hz0]
    exact hK _
  have htrue : StructGrad (fun z' : Fin 1 → ℝ =>
      ‖(goosEval c' (fun _ : Fin 1 => w) (renderEval (fun _ => (s : ℂ)) mats 1 z')).getD 0 0‖) (fun _ => 0)
      (fun j => part mats 1 G0 0 j + part mats 1 G0 1 j + part mats 1 G0 2 j) := by
    have hF : FieldGrad (fun e => ‖(goosEval c' (fun _ : Fin 1 => w) e).getD 0 0‖)
        (renderEval (fun _ => (s : ℂ)) mats 1 (fun _ : Fin 1 => (0 : ℝ))) (fun p => 2 * G0 p) := by
      obtain ⟨fields, G, h1, h2, L', h3, h4⟩ := goos_grad_exact h' (fun _ : Fin 1 => w)
        (renderEval (fun _ => (s : ℂ)) mats 1 (fun _ : Fin 1 => (0 : ℝ))) hwA hu (fun o => ‖o 0‖) (fun _ => 1 / 2) L b2
        (fun o ho => by
          rw [hz0, hev0] at ho
          cases ho
          exact b3)
      rw [hz0, hx] at h1
      cases h1
      rw [hz0, hgr] at h2
      cases h2
      refine ⟨L', fun v => ?_, h4⟩
      rw [h3]
      refine Finset.sum_congr rfl fun p _ => ?_
      show 2 * (G0 p * v p).re = (2 * G0 p * v p).re
      rw [mul_assoc 2, show (2 : ℂ) = ((2 : ℝ) : ℂ) by norm_num, Complex.re_ofReal_mul]
    rw [renderEval_eq] at hF
    have := epsilon_gradient hF
    simp only [← renderEval_eq] at this
    refine structGrad_congr this ?_
    funext j
    simp only [part_eq, epsilonGrad, vecMul, dotProduct, Fintype.sum_prod_type, Fin.sum_univ_three, Complex.add_re, Complex.re_sum]
  have hG00 : (G0 p0).re = ω := by
    simp only [G0, hx0, hy0, hωc]
    simp
  have hG02 : (G0 p2).re = -2 * ω := by
    simp only [G0, hx2, hy2, hωc]
    simp
    ring
  have hpart : ∀ a (j : Fin 1), part mats 1 G0 a j = if a = 0 then 2 * ω else if a = 2 then -4 * ω else 0 := by
    intro a j
    rw [part_eq, Finset.sum_eq_single ⟨0, hn⟩]
    · have e2 : ∀ p : Fin 3 × Fin sh.size, (2 * G0 p).re = 2 * (G0 p).re := fun p => by
        rw [show (2 : ℂ) = ((2 : ℝ) : ℂ) by norm_num, Complex.re_ofReal_mul]
      fin_cases a
      · simp only [renderMat, mats]
        have := e2 p0
        simp only [Fin.zero_eta, true_or, true_and, if_true, Complex.ofReal_one, mul_one]
        rw [show ((0 : Fin 3), (⟨0, hn⟩ : Fin sh.size)) = p0 from rfl, this, hG00]
      · simp [renderMat, mats]
      · simp only [renderMat, mats]
        have := e2 p2
        simp only [Fin.reduceFinMk, or_true, true_and, if_true, Complex.ofReal_one, mul_one]
        rw [show ((2 : Fin 3), (⟨0, hn⟩ : Fin sh.size)) = p2 from rfl, this, hG02]
        simp
        ring
    · intro i _ hi
      have : (i : Nat) ≠ 0 := fun h0 => hi (Fin.ext h0)
      simp [renderMat, mats, this]
    · simp
  refine ⟨J, w, s, mats, hs0, ?_⟩
  intro o
  have hsim : ∀ i, GoodSim (o.sims i).c := fun _ => h'
  let mg : ℝ → ℝ := fun t => ‖(goosEval c' (fun _ : Fin 1 => w) (renderEval (fun _ => (s : ℂ)) mats 1 (fun _ : Fin 1 => t))).getD 0 0‖
  have hmi : ∀ t : ℝ, ∀ i, (o.sims i).mags [t] = some fun _ => mg t := by
    intro t i
    have e1 : (fun j : Fin 1 => ([t] : List ℝ).getD j 0) = fun _ => t := by
      funext j
      have : j = 0 := Subsingleton.elim _ _
      subst this
      rfl
    obtain ⟨a, ha⟩ := hev (renderEval (fun _ => (s : ℂ)) mats 1 (fun _ : Fin 1 => t))
    show (if ([t] : List ℝ).length = 1 then (goosEval c' (fun _ : Fin 1 => w) (renderEval (fun _ => (s : ℂ)) mats 1
      fun j : Fin 1 => ([t] : List ℝ).getD j 0)).map (fun a i => ‖a i‖) else none) = _
    rw [if_pos (show ([t] : List ℝ).length = 1 from rfl), e1]
    simp only [mg, ha, Option.map_some, Option.getD_some]
    congr 1
    funext i
    have : i = 0 := Subsingleton.elim _ _
    rw [this]
  have hmags : ∀ t : ℝ, o.mags [t] = some fun _ _ => mg t := by
    intro t
    rw [GoosFn.mags, dif_pos (fun i => by rw [hmi t i]; rfl)]
    congr 1
    funext i
    simp only [hmi t i, Option.get_some]
  have hval : ∀ t : ℝ, pixelValue o.fn [t] = some (mg t) := by
    intro t
    simp only [pixelValue, GoosFn.fn, hmags, Option.map_some]
    rfl
  have e0 : (fun j : Fin 1 => ([0] : List ℝ).getD j 0) = fun _ => (0 : ℝ) := by
    funext j
    have : j = 0 := Subsingleton.elim _ _
    subst this
    rfl
  have hback : ∀ i, (o.sims i).backward [0] (fun _ => 1) = some fun _ => 4 * ω := by
    intro i
    show goosAbsBackward c' (fun _ => (s : ℂ)) mats 1 (fun _ : Fin 1 => w) (fun j : Fin 1 => ([0] : List ℝ).getD j 0) (fun _ => 1) = _
    rw [e0, goosAbsBackward, hz0, hev0, Option.bind_some, habs, Option.bind_some, goosBackward, hz0, hx, Option.bind_some, hgr,
      Option.map_some]
    congr 1
    funext j
    show renderGrad mats 1 G0 j = _
    rw [renderGrad_eq, hpart, hpart, hpart]
    simp
    ring
  refine ⟨⟨hsim, rfl, fun i => ⟨_, by
      show waveOp c' (renderEval (fun _ => (s : ℂ)) mats 1 fun j : Fin 1 => ([0] : List ℝ).getD j 0) = _
      rw [e0]
      exact hwA, hu⟩, ?_, ?_⟩, 4 * ω, mg 0, ?_, hval 0, ?_⟩
  · intro i a ha j
    rw [hmi 0 i] at ha
    cases ha
    simp only [mg, hz0, hev0, Option.getD_some]
    exact norm_ne_zero_iff.2 hσ0
  · intro a _
    let π : (Fin 1 → Fin 1 → ℝ) →L[ℝ] ℝ := (ContinuousLinearMap.proj (R := ℝ) (φ := fun _ : Fin 1 => ℝ) 0).comp
      (ContinuousLinearMap.proj (R := ℝ) (φ := fun _ : Fin 1 => Fin 1 → ℝ) 0)
    refine ⟨π, ?_, π.hasFDerivAt⟩
    intro v
    show v 0 0 = ∑ i : Fin 1, ∑ j : Fin 1, 1 * v i j
    simp
  · simp only [pixelGrad, GoosFn.fn, hmags, Option.bind_some]
    have : (List.finRange 1).foldlM (fun (acc : Fin 1 → ℝ) (i : Fin 1) => ((o.sims i).backward [0] (fun _ => 1)).map (acc + ·)) 0 =
        some fun _ => 4 * ω := by
      rw [foldlM_sum _ (fun _ _ => 4 * ω) (fun i => hback i)]
      simp [List.finRange_succ]
    show Option.map List.ofFn ((List.finRange 1).foldlM
      (fun (acc : Fin 1 → ℝ) (i : Fin 1) => ((o.sims i).backward [0] (fun _ => 1)).map (acc + ·)) 0) = _
    rw [this]
    simp
  · obtain ⟨L', hL', hd⟩ := htrue
    have hpath : HasDerivAt (fun t : ℝ => fun _ : Fin 1 => 0 - t * (4 * ω)) (fun _ => -(4 * ω)) 0 := by
      refine hasDerivAt_pi.2 fun _ => ?_
      have := ((hasDerivAt_id (0 : ℝ)).mul_const (4 * ω)).const_sub 0
      simpa using this
    have hd' : HasFDerivAt (fun z' : Fin 1 → ℝ =>
        ‖(goosEval c' (fun _ : Fin 1 => w) (renderEval (fun _ => (s : ℂ)) mats 1 z')).getD 0 0‖) L'
        ((fun t : ℝ => fun _ : Fin 1 => 0 - t * (4 * ω)) 0) := by
      simpa using hd
    have hcomp := hd'.comp_hasDerivAt (0 : ℝ) hpath
    rw [hL'] at hcomp
    simp only [hpart, Fin.sum_univ_one] at hcomp
    have hcomp' : HasDerivAt (fun t => mg (0 - t * (4 * ω))) (8 * ω ^ 2) 0 := by
      refine hcomp.congr_deriv ?_
      simp
      ring
    have hev := hcomp'.tendsto_slope_zero_right.eventually (lt_mem_nhds (show (0 : ℝ) < 8 * ω ^ 2 by positivity))
    obtain ⟨ε, hε, hsub⟩ := mem_nhdsGT_iff_exists_Ioo_subset.1 hev
    refine ⟨ε, hε, fun t ht0 ht => ⟨_, hval _, ?_⟩⟩
    have := hsub ⟨ht0, ht⟩
    simp only [Set.mem_ofPred_eq, zero_add, zero_mul, sub_zero, smul_eq_mul] at this
    have h2 := (pos_iff_pos_of_mul_pos this).1 (inv_pos.2 ht0)
    linarith

/-! ### The hypotheses are met -/

/-- A field along the third axis, with an overlap that is not dark, for a shape with any number of pixels, and values `z` of them. -/
theorem flat_case (m : Nat) (z : List ℝ) (hz : z.length = m) : ∃ o : GoosFn ![2, 2, 2] m, o.q = 1 ∧ o.Good z ∧ o.Flat z ∧
    ∀ i, (o.sims i).mats 2 0 0 ≠ 0 := by
  have h := eightCells_good 0
  obtain ⟨K, hK, hsolve⟩ := sim_system h
  obtain ⟨s, -, hu⟩ := exists_regular_above h K 1
  let p0 : Fin 3 × Fin (Shape.size ![2, 2, 2]) := (2, ⟨0, by decide⟩)
  let x : VField (Shape.size ![2, 2, 2]) := Pi.single p0 1
  obtain ⟨J, -, hx, -, -⟩ := planted h hK hsolve (fun _ => (s : ℂ)) hu x x
  let mats : Fin 3 → Nat → Nat → ℝ := fun _ _ _ => 1
  let base : VField (Shape.size ![2, 2, 2]) := fun p => (s : ℂ) - Render.pixEval (mats p.1) m 1 (pixelValues fun j : Fin m => z.getD j 0) p.2
  have hb : renderEval base mats 1 (fun j : Fin m => z.getD j 0) = fun _ => (s : ℂ) := by
    funext p
    simp [renderEval, base]
  have hev : goosEval (eightCells J) (fun _ : Fin 1 => x) (fun _ => (s : ℂ)) = some fun _ => 1 := by
    have hx' : simFields (eightCells J) (fun _ => (s : ℂ)) = some x := hx
    rw [goosEval, hx']
    simp [x, overlapEval, Pi.single_apply]
  refine ⟨⟨1, fun _ => ⟨eightCells J, base, mats, 1, 1, fun _ => x⟩, fun a => a 0 0, fun _ _ _ => 1⟩, rfl,
    ⟨fun _ => eightCells_good J, hz, fun _ => ⟨_, by rw [hb]; exact hK _, hu⟩, ?_, ?_⟩, ?_, fun _ => one_ne_zero⟩
  · intro i a ha j
    simp only [GoosSim.mags, if_pos hz] at ha
    rw [hb, hev] at ha
    simp only [Option.map_some, Option.some.injEq] at ha
    rw [← ha]
    simp
  · intro a _
    let π : (Fin 1 → Fin 1 → ℝ) →L[ℝ] ℝ := (ContinuousLinearMap.proj (R := ℝ) (φ := fun _ : Fin 1 => ℝ) 0).comp
      (ContinuousLinearMap.proj (R := ℝ) (φ := fun _ : Fin 1 => Fin 1 → ℝ) 0)
    refine ⟨π, ?_, π.hasFDerivAt⟩
    intro v
    show v 0 0 = ∑ i : Fin 1, ∑ j : Fin 1, 1 * v i j
    simp
  · intro i fields hf y
    rw [hb] at hf
    have : some fields = some x := hf.symm.trans hx
    cases this
    simp [x, p0]

/-- For `pixel_design_gradient_partial`. -/
example : ∃ o : GoosFn ![2, 2, 2] 3, o.Good [0, 1 / 2, 1] ∧ o.Flat [0, 1 / 2, 1] := by
  obtain ⟨o, -, a, b, -⟩ := flat_case 3 [0, 1 / 2, 1] rfl
  exact ⟨o, a, b⟩

/-- For `cubic_shape_gradient_partial`: every shape that can be created, and every value of its variable. -/
example {nx ny : Nat} {u : ℝ} {sym : Bool × Bool} {p : Nat × Nat} {rand : Nat → ℝ} {P : CubicParam} (hnx : 0 < nx) (hny : 0 < ny)
    (hu : 0 < u) (hP : createCubicParam nx ny u sym p rand = .ok P) (v : List ℝ) (hv : v ∈ box P.toVector.length 0 1) :
    ∃ o : GoosFn ![2, 2, 2] (nx * ny), ∀ s, evalPixels P v = .ok s → o.Good s ∧ o.Flat s := by
  obtain ⟨s, hs, hl, -⟩ := goos_cubic_symmetric hnx hny hu hP v hv.1
  obtain ⟨o, -, a, b, -⟩ := flat_case (nx * ny) s hl
  refine ⟨o, fun s' hs' => ?_⟩
  rw [hs] at hs'
  cases hs'
  exact ⟨a, b⟩

/-- For `pixel_descent_ascends`. -/
example : GoodSim (eightCells 0) ∧ 0 < Shape.size ![2, 2, 2] := ⟨eightCells_good 0, by decide⟩

end Verif.Plan.Goos
