import Verif.Plan.InvGradient
import Verif.Fdfd.EmChainProps
import Verif.Cubic.HermiteState
import Mathlib.Analysis.Calculus.Deriv.Comp
import Mathlib.Analysis.Calculus.Deriv.Prod
import Mathlib.Analysis.Calculus.Deriv.Pi
/-
C123: the gradients that the optimizer of `spins.invdes` is given are those of the problem, from the vector of the parametrization to the
objective.
-/
set_option linter.unusedVariables false
namespace Verif.Plan.Inv
open Verif.Plan Verif.Opt Verif.Cubic Verif.Grating Verif.Fdfd

variable {P : Type} {m : Nat}

/-! ### Specification -/

/-- The point `x + t d`. -/
def line (x d : List ℝ) (t : ℝ) : List ℝ := List.zipWith (fun a b => a + t * b) x d

/-- `γ` is the gradient of `f` at `x` on the set `B`: along every line through `x`, for the times at which it is in `B`, `f` is defined
and has the derivative `γ · d`. For an inner point of `B` these are all directions, at the border those into `B`. -/
def IsGradientOn (f : List ℝ → Option (List ℝ)) (γ x : List ℝ) (B : Set (List ℝ)) : Prop :=
  γ.length = x.length ∧ ∀ (d : List ℝ) (T : Set ℝ), d.length = x.length → 0 ∈ T → (∀ t ∈ T, line x d t ∈ B) →
    ∃ φ : ℝ → ℝ, (∀ t ∈ T, f (line x d t) = some [φ t]) ∧
      HasDerivWithinAt φ (∑ i ∈ Finset.range x.length, γ.getD i 0 * d.getD i 0) T 0

/-- The function of the structure has a value for every structure, and reports its gradient at `s`. -/
def RegularAt (o : StructFn m) (s : List ℝ) : Prop :=
  ∃ g F, o.grad s = some g ∧ (∀ s', s'.length = m → o.value s' = some (F fun j : Fin m => s'.getD j 0)) ∧
    StructGrad F (fun j => s.getD j 0) g

/-- Around `x` the structure of the parametrization is differentiable along the lines in `B`, with the derivative it reports. -/
def SmoothOn (M : ParamClass P) (m : Nat) (p0 : P) (x : List ℝ) (B : Set (List ℝ)) : Prop :=
  ∃ p A, M.fromVector p0 x = some p ∧ M.calculateGradient p = some A ∧ A.rows = m ∧ A.cols = x.length ∧
    ∀ (d : List ℝ) (T : Set ℝ), d.length = x.length → 0 ∈ T → (∀ t ∈ T, line x d t ∈ B) →
      ∃ S : ℝ → List ℝ, (∀ t ∈ T, (M.fromVector p0 (line x d t)).bind M.getStructure = some (S t)) ∧ (∀ t ∈ T, (S t).length = m) ∧
        ∀ r < m, HasDerivWithinAt (fun t => (S t).getD r 0) (A.mulVec (vals d) r) T 0

/-! ### The chain rule -/

theorem line_zero (x d : List ℝ) (h : d.length = x.length) : line x d 0 = x := by
  apply List.ext_getElem
  · simp [line, h]
  · intro i h1 h2
    simp [line]

theorem rowMul_dot (g : Fin m → ℝ) (A : SpMat ℝ) (d : List ℝ) :
    ∑ i ∈ Finset.range A.cols, (rowMul g A).getD i 0 * d.getD i 0 = ∑ r : Fin m, g r * A.mulVec (vals d) r := by
  unfold SpMat.mulVec vals
  simp only [Finset.mul_sum]
  rw [Finset.sum_comm]
  apply Finset.sum_congr rfl
  intro i hi
  have hi' := Finset.mem_range.1 hi
  rw [rowMul, List.getD_eq_getElem _ _ (by simpa using hi'), List.getElem_map, List.getElem_range, Finset.sum_mul]
  exact Finset.sum_congr rfl fun r _ => by ring

/-- The gradient of a function of the structure with respect to the vector of the parametrization. -/
theorem chain_gradient (M : ParamClass P) (o : StructFn m) (p0 : P) (x : List ℝ) (B : Set (List ℝ)) (hx : x ∈ B)
    (hM : SmoothOn M m p0 x B) (s : List ℝ) (hs : (M.fromVector p0 x).bind M.getStructure = some s) (ho : RegularAt o s) :
    ∃ γ, (M.fromVector p0 x).bind (evalGrad M o) = some γ ∧
      IsGradientOn (fun y => (M.fromVector p0 y).bind (evalFun M o)) γ x B := by
  obtain ⟨p, A, h1, h2, h3, h4, h5⟩ := hM
  obtain ⟨g, F, g1, g2, L, hL, hF⟩ := ho
  rw [h1, Option.bind_some] at hs
  refine ⟨rowMul g A, by simp [h1, evalGrad, hs, g1, h2, h3], by simp [rowMul, h4], fun d T hd h0 hT => ?_⟩
  obtain ⟨S, s1, s2, s3⟩ := h5 d T hd h0 hT
  have hS0 : S 0 = s := by
    have := s1 0 h0
    rw [line_zero x d hd, h1, Option.bind_some, hs] at this
    exact (Option.some.inj this).symm
  refine ⟨fun t => F fun j => (S t).getD j 0, fun t ht => ?_, ?_⟩
  · have hst := s1 t ht
    cases hp : M.fromVector p0 (line x d t) with
    | none => rw [hp] at hst; cases hst
    | some q =>
      rw [hp, Option.bind_some] at hst
      show (M.fromVector p0 (line x d t)).bind (evalFun M o) = _
      simp [hp, evalFun, hst, g2 _ (s2 t ht)]
  · rw [← h4, rowMul_dot]
    have hc : HasDerivWithinAt (fun t (j : Fin m) => (S t).getD j 0) (fun j : Fin m => A.mulVec (vals d) j) T 0 :=
      hasDerivWithinAt_pi.2 fun j => s3 j j.isLt
    have hF' : HasFDerivAt F L (fun j : Fin m => (S 0).getD j 0) := by rw [hS0]; exact hF
    have := hF'.comp_hasDerivWithinAt (0 : ℝ) hc
    rw [hL] at this
    exact this

/-- The negated function has the negated gradient. -/
theorem IsGradientOn.neg {f : List ℝ → Option (List ℝ)} {γ x : List ℝ} {B : Set (List ℝ)} (h : IsGradientOn f γ x B) :
    IsGradientOn (fun y => (f y).map (List.map fun r => -r)) (γ.map fun r => -r) x B := by
  refine ⟨by simp [h.1], fun d T hd h0 hT => ?_⟩
  obtain ⟨φ, a, b⟩ := h.2 d T hd h0 hT
  refine ⟨fun t => -φ t, fun t ht => by simp [a t ht], ?_⟩
  have e : ∑ i ∈ Finset.range x.length, (γ.map fun r => -r).getD i 0 * d.getD i 0 =
      -∑ i ∈ Finset.range x.length, γ.getD i 0 * d.getD i 0 := by
    rw [← Finset.sum_neg_distrib]
    apply Finset.sum_congr rfl
    intro i hi
    have hi' : i < γ.length := by rw [h.1]; exact Finset.mem_range.1 hi
    rw [List.getD_eq_getElem _ _ (by simpa using hi'), List.getD_eq_getElem _ _ hi', List.getElem_map]
    ring
  rw [e]
  exact b.neg

/-! ### Parametrizations -/

/-- The vectors of this length within the bounds. -/
def box (n : Nat) (lo hi : ℝ) : Set (List ℝ) := {y | y.length = n ∧ ∀ a ∈ y, lo ≤ a ∧ a ≤ hi}

theorem clip_box (y : List ℝ) (lo hi : ℝ) (h : ∀ a ∈ y, lo ≤ a ∧ a ≤ hi) : (y.map fun x => min (max x lo) hi) = y := by
  conv_rhs => rw [← List.map_id y]
  apply List.map_congr_left
  intro a ha
  obtain ⟨h1, h2⟩ := h a ha
  simp [max_eq_left h1, min_eq_left h2]

theorem cubic_smooth (p0 : CubicParam) (x : List ℝ) (hx : x ∈ box p0.vec2f.cols p0.lower p0.upper) :
    SmoothOn cubicClass p0.vec2f.rows p0 x (box p0.vec2f.cols p0.lower p0.upper) := by
  have hfrom : ∀ y ∈ box p0.vec2f.cols p0.lower p0.upper, cubicClass.fromVector p0 y = some (p0.decode y) := by
    intro y hy
    show some ((p0.decode y).project) = _
    rw [CubicParam.project]
    congr 1
    show ({ p0.decode y with vector := y.map fun x => min (max x p0.lower) p0.upper } : CubicParam) = _
    rw [clip_box y _ _ hy.2]
    rfl
  obtain ⟨A, S, a1, -, a3, a4, -⟩ := gradient_derivative (p0.decode x) x hx.1 hx.1
  refine ⟨p0.decode x, A, hfrom x hx, by show (CubicParam.calculateGradient _).toOption = _; rw [a1]; rfl, a3, a4, ?_⟩
  intro d T hd h0 hT
  obtain ⟨A', S, b1, b2, -, -, b5⟩ := gradient_derivative (p0.decode x) d hx.1 (hd.trans hx.1)
  obtain rfl : A = A' := by rw [a1] at b1; cases b1; rfl
  refine ⟨S, fun t ht => ?_, fun t ht => ?_, fun r hr => (b5 r hr).hasDerivWithinAt⟩
  · rw [hfrom _ (hT t ht), Option.bind_some]
    show (CubicParam.getStructure _).toOption = _
    have := b2 t
    change (p0.decode (line x d t)).getStructure = _ at this
    rw [this]
    rfl
  · exact (getStructure_spec (b2 t)).2.1

theorem hermite_smooth (p0 : HermiteParam) (hg : p0.geometry.cols = p0.vec2f.cols) (x : List ℝ)
    (hx : x ∈ box p0.vec2f.cols p0.lower p0.upper) :
    SmoothOn hermiteClass p0.vec2f.rows p0 x (box p0.vec2f.cols p0.lower p0.upper) := by
  have hfrom : ∀ y ∈ box p0.vec2f.cols p0.lower p0.upper, hermiteClass.fromVector p0 y = some { p0 with vector := y } := by
    intro y hy
    show ((p0.decode (.array y)).toOption.bind fun r => some r.project) = _
    simp only [HermiteParam.decode]
    rw [if_pos (hy.1.trans hg.symm)]
    simp only [Except.toOption, Option.bind_some, HermiteParam.project]
    rw [clip_box y _ _ hy.2]
  obtain ⟨A, S, a1, -, a3, a4, -⟩ := hermite_gradient { p0 with vector := x } x hx.1 hx.1
  refine ⟨{ p0 with vector := x }, A, hfrom x hx, by show (HermiteParam.calculateGradient _).toOption = _; rw [a1]; rfl, a3, a4, ?_⟩
  intro d T hd h0 hT
  obtain ⟨A', S, b1, b2, -, -, b5⟩ := hermite_gradient { p0 with vector := x } d hx.1 (hd.trans hx.1)
  obtain rfl : A = A' := by rw [a1] at b1; cases b1; rfl
  refine ⟨S, fun t ht => ?_, fun t ht => ?_, fun r hr => (b5 r hr).hasDerivWithinAt⟩
  · rw [hfrom _ (hT t ht), Option.bind_some]
    show (HermiteParam.getStructure _).toOption = _
    have := b2 t
    change HermiteParam.getStructure { p0 with vector := line x d t } = _ at this
    rw [this]
    rfl
  · exact (hermite_structure_spec (b2 t)).2.1

/-- The vectors of a `DirectParam` within its bounds. -/
def directBox (p0 : Direct) : Set (List ℝ) :=
  {y | y.length = p0.lower.entries.length ∧ y.length = p0.upper.entries.length ∧
    ∀ i (h : i < y.length), (∀ l, p0.lower.entries[i]? = some (some l) → l ≤ y[i]) ∧
      ∀ u, p0.upper.entries[i]? = some (some u) → y[i] ≤ u}

theorem direct_smooth (p0 : Direct) (x : List ℝ) (hx : x ∈ directBox p0) :
    SmoothOn directClass x.length p0 x (directBox p0) := by
  have hfrom : ∀ y ∈ directBox p0, directClass.fromVector p0 y = some { p0 with vector := y } := by
    rintro y ⟨h1, h2, h3⟩
    show Direct.project { p0 with vector := y } = _
    rw [Direct.project, if_pos ⟨h1.symm, h2.symm⟩]
    simp only [Option.some.injEq, Direct.mk.injEq, and_true]
    apply List.ext_getElem
    · simp; omega
    · intro i k1 k2
      obtain ⟨c1, c2⟩ := h3 i k2
      rw [List.getElem?_eq_getElem (by omega)] at c1 c2
      simp only [List.getElem_zipWith, List.getElem_zip]
      revert c1 c2
      generalize p0.lower.entries[i]'(by omega) = l
      generalize p0.upper.entries[i]'(by omega) = u
      intro c1 c2
      cases l <;> cases u <;> simp only [clip1]
      · exact min_eq_left (c2 _ rfl)
      · exact max_eq_left (c1 _ rfl)
      · rw [max_eq_left (c1 _ rfl), min_eq_left (c2 _ rfl)]
  refine ⟨{ p0 with vector := x }, SpMat.eye x.length, hfrom x hx, rfl, rfl, rfl, fun d T hd h0 hT => ?_⟩
  refine ⟨line x d, fun t ht => by rw [hfrom _ (hT t ht)]; rfl, fun t ht => by simp [line, hd], fun r hr => ?_⟩
  have hl : (fun t => (line x d t).getD r 0) = fun t => x.getD r 0 + t * d.getD r 0 := by
    funext t
    rw [line, List.getD_eq_getElem _ _ (by simp; omega), List.getD_eq_getElem _ _ hr, List.getD_eq_getElem _ _ (by omega)]
    simp
  have hm : (SpMat.eye (K := ℝ) x.length).mulVec (vals d) r = d.getD r 0 := by
    rw [SpMat.eye_mulVec hr]
    rfl
  rw [hl, hm]
  have := ((hasDerivAt_id (0 : ℝ)).mul_const (d.getD r 0)).const_add (x.getD r 0)
  simp only [one_mul, id] at this
  exact this.hasDerivWithinAt

/-! ### Overlaps -/

/-- What the gradient of a function of overlaps needs at the structure `s`: simulations with systems that can be solved there, the
overlaps are not zero, and the nodes on top report the derivatives of what they compute. -/
structure OverlapFn.Good {sh : Shape} (o : OverlapFn sh m) (s : List ℝ) : Prop where
  sim : ∀ i, GoodSim (o.sims i).c
  real : ∀ i, (o.sims i).isReal = true → (∀ p, ((o.sims i).bg p).im = 0) ∧ ∀ p j, ((o.sims i).S p j).im = 0
  length : s.length = m
  solvable : ∀ i, ∃ A, waveOp (o.sims i).c (epsilonEval (o.sims i).bg (o.sims i).S fun j => s.getD j 0) = some A ∧ IsUnit A.det
  lit : ∀ i a, (o.sims i).mags s = some a → ∀ j, a j ≠ 0
  top : ∀ a, o.mags s = some a → ∃ L : ((i : Fin o.q) → Fin (o.sims i).k → ℝ) →L[ℝ] ℝ,
    (∀ v, L v = ∑ i, ∑ j, o.dΦ a i j * v i j) ∧ HasFDerivAt o.Φ L a

theorem foldlM_sum {α : Type} (f : α → Option (Fin m → ℝ)) (g : α → Fin m → ℝ) (hf : ∀ a, f a = some (g a)) (l : List α)
    (acc : Fin m → ℝ) : l.foldlM (fun (acc : Fin m → ℝ) i => (f i).map (acc + ·)) acc = some (acc + (l.map g).sum) := by
  induction l generalizing acc with
  | nil => simp
  | cons a l ih =>
    rw [List.foldlM_cons, hf, Option.map_some]
    show l.foldlM _ (acc + g a) = _
    rw [ih, List.map_cons, List.sum_cons, add_assoc]

theorem OverlapFn.Good.regular {sh : Shape} {o : OverlapFn sh m} {s : List ℝ} (h : o.Good s) : RegularAt o.fn s := by
  have htot : ∀ i e, ∃ E, simFields (o.sims i).c e = some E := fun i e => by
    obtain ⟨K, hK, hsolve⟩ := sim_system (h.sim i)
    obtain ⟨E, hE, -⟩ := hsolve e (o.sims i).c.J false
    exact ⟨E, hE⟩
  set z : Fin m → ℝ := fun j => s.getD j 0 with hz
  let mg : (Fin m → ℝ) → (i : Fin o.q) → Fin (o.sims i).k → ℝ := fun z i j =>
    ‖∑ p, (o.sims i).Cs j p * ((simFields (o.sims i).c (epsilonEval (o.sims i).bg (o.sims i).S z)).getD 0) p‖
  have hmags : ∀ s' : List ℝ, s'.length = m → o.mags s' = some (mg fun j => s'.getD j 0) := by
    intro s' hs'
    have hi : ∀ i, (o.sims i).mags s' = some (mg (fun j => s'.getD j 0) i) := by
      intro i
      obtain ⟨E, hE⟩ := htot i (epsilonEval (o.sims i).bg (o.sims i).S fun j => s'.getD j 0)
      simp only [OverlapSim.mags, if_pos hs', hE, Option.map_some, mg, Option.getD_some]
      rfl
    rw [OverlapFn.mags, dif_pos (fun i => by rw [hi i]; rfl)]
    congr 1
    funext i
    simp only [hi, Option.get_some]
  have hm := hmags s h.length
  have hback : ∀ i (w : Fin (o.sims i).k → ℝ), ∃ g, overlapsBackward (o.sims i).c (o.sims i).bg (o.sims i).S (o.sims i).isReal
      (o.sims i).Cs z w = some g ∧ StructGrad (fun z => ∑ j, w j * mg z i j) z g := by
    intro i w
    obtain ⟨A, hA, hu⟩ := h.solvable i
    obtain ⟨E, hE⟩ := htot i (epsilonEval (o.sims i).bg (o.sims i).S z)
    have hmi : (o.sims i).mags s = some fun j => absFnEval (overlapFnEval ((o.sims i).Cs j) E) := by
      rw [OverlapSim.mags, if_pos h.length, hE, Option.map_some]
    exact overlaps_gradient (h.sim i) (o.sims i).bg (o.sims i).S (o.sims i).isReal (h.real i) (o.sims i).Cs z hA hu E hE
      (fun j => norm_ne_zero_iff.1 (h.lit i _ hmi j)) (fun a => ∑ j, w j * a j) w
      ⟨∑ j, w j • ContinuousLinearMap.proj (R := ℝ) (φ := fun _ => ℝ) j, by
        intro v; simp , by
        have : (fun a : Fin (o.sims i).k → ℝ => ∑ j, w j * a j) =
            fun a => (∑ j, w j • ContinuousLinearMap.proj (R := ℝ) (φ := fun _ => ℝ) j) a := by
          funext a; simp
        rw [this]
        exact ContinuousLinearMap.hasFDerivAt _⟩
  -- the derivatives of the single absolute values
  have hone : ∀ i j, ∃ L : (Fin m → ℝ) →L[ℝ] ℝ, HasFDerivAt (fun z => mg z i j) L z := by
    intro i j
    obtain ⟨g, -, L, -, hd⟩ := hback i (fun j' => if j' = j then 1 else 0)
    refine ⟨L, ?_⟩
    have : (fun z => ∑ j', (if j' = j then (1 : ℝ) else 0) * mg z i j') = fun z => mg z i j := by
      funext z; simp
    rwa [this] at hd
  choose L hL using hone
  have hall : HasFDerivAt mg (ContinuousLinearMap.pi fun i => ContinuousLinearMap.pi fun j => L i j) z := by
    rw [hasFDerivAt_pi]
    intro i
    rw [hasFDerivAt_pi]
    exact fun j => hL i j
  choose G hG1 hG2 using fun i => hback i (o.dΦ (mg z) i)
  obtain ⟨LΦ, t1, t2⟩ := h.top _ hm
  have hGv : ∀ i v, ∑ r, G i r * v r = ∑ j, o.dΦ (mg z) i j * L i j v := by
    intro i v
    obtain ⟨L', a, b⟩ := hG2 i
    have h2 : HasFDerivAt (fun y => ∑ j, o.dΦ (mg z) i j * mg y i j) (∑ j, o.dΦ (mg z) i j • L i j) z :=
      HasFDerivAt.fun_sum fun j _ => (hL i j).const_mul (o.dΦ (mg z) i j)
    rw [← a, b.unique h2]
    simp
  refine ⟨((List.finRange o.q).map G).sum, fun y => o.Φ (mg y), ?_, ?_, ?_⟩
  · simp only [OverlapFn.fn, hm, Option.bind_some]
    rw [foldlM_sum _ G (fun i => hG1 i), zero_add]
  · intro s' hs'
    simp only [OverlapFn.fn, hmags s' hs', Option.map_some]
  · refine ⟨LΦ.comp (ContinuousLinearMap.pi fun i => ContinuousLinearMap.pi fun j => L i j), ?_, ?_⟩
    · intro v
      rw [ContinuousLinearMap.comp_apply, t1]
      simp only [ContinuousLinearMap.coe_pi']
      rw [← List.ofFn_eq_map, List.sum_ofFn]
      simp only [Finset.sum_apply, Finset.sum_mul]
      rw [Finset.sum_comm]
      exact Finset.sum_congr rfl fun i _ => (hGv i v).symm
    · exact HasFDerivAt.comp (g := o.Φ) z t2 hall

/-! ### C123 -/

/-- The gradients of the stated problem, for any parametrization that is smooth at `x`. -/
theorem stated_gradients (M : ParamClass P) (pr : Problem (StructFn m)) (p0 : P) (x : List ℝ) (B : Set (List ℝ)) (hx : x ∈ B)
    (hM : SmoothOn M m p0 x B) (s : List ℝ) (hs : (M.fromVector p0 x).bind M.getStructure = some s) :
    (RegularAt pr.obj s → ∃ γ, stated (structWorld M m) pr p0 .jac x = some γ ∧
      IsGradientOn (stated (structWorld M m) pr p0 .fun_) γ x B) ∧
    ∀ i (h : i < (pr.consEq ++ pr.consIneq).length), RegularAt ((pr.consEq ++ pr.consIneq)[i]) s →
      ∃ γ, stated (structWorld M m) pr p0 (.conJac i) x = some γ ∧
        IsGradientOn (stated (structWorld M m) pr p0 (.con i)) γ x B := by
  refine ⟨fun hr => chain_gradient M pr.obj p0 x B hx hM s hs hr, fun i h hr => ?_⟩
  by_cases hi : i < pr.consEq.length
  · rw [List.getElem_append_left hi] at hr
    obtain ⟨γ, a, b⟩ := chain_gradient M _ p0 x B hx hM s hs hr
    refine ⟨γ, by simp only [stated, dif_pos hi]; exact a, ?_⟩
    have e : stated (structWorld M m) pr p0 (.con i) = fun y => (M.fromVector p0 y).bind (evalFun M pr.consEq[i]) := by
      funext y
      simp only [stated, dif_pos hi]
      rfl
    rw [e]
    exact b
  · have hi' : i - pr.consEq.length < pr.consIneq.length := by
      rw [List.length_append] at h; omega
    rw [List.getElem_append_right (by omega)] at hr
    obtain ⟨γ, a, b⟩ := chain_gradient M _ p0 x B hx hM s hs hr
    refine ⟨γ.map fun r => -r, ?_, ?_⟩
    · simp only [stated, dif_neg hi, dif_pos hi']
      have : ((structWorld M m).fromVec p0 x).bind ((structWorld M m).grd pr.consIneq[i - pr.consEq.length]) = some γ := a
      rw [this]
      rfl
    · have e : stated (structWorld M m) pr p0 (.con i) = fun y =>
          ((M.fromVector p0 y).bind (evalFun M pr.consIneq[i - pr.consEq.length])).map (List.map fun r => -r) := by
        funext y
        simp only [stated, dif_neg hi, dif_pos hi']
        rfl
      rw [e]
      exact b.neg

/-- **C123**, cubic parametrizations. -/
theorem cubic_design_gradient {sh : Shape} (p0 : CubicParam) (o : OverlapFn sh p0.vec2f.rows) (es is : List (StructFn p0.vec2f.rows))
    (x : List ℝ) (hx : x ∈ box p0.vec2f.cols p0.lower p0.upper)
    (s : List ℝ) (hs : (p0.decode x).getStructure = .ok s) (ho : o.Good s) :
    ∃ γ, stated (structWorld cubicClass p0.vec2f.rows) ⟨o.fn, es, is⟩ p0 .jac x = some γ ∧
      IsGradientOn (stated (structWorld cubicClass p0.vec2f.rows) ⟨o.fn, es, is⟩ p0 .fun_) γ x (box p0.vec2f.cols p0.lower p0.upper) := by
  refine (stated_gradients cubicClass ⟨o.fn, es, is⟩ p0 x _ hx (cubic_smooth p0 x hx) s ?_).1 ho.regular
  show (some ((p0.decode x).project)).bind _ = _
  rw [Option.bind_some]
  have : (p0.decode x).project = p0.decode x := by
    show ({ p0.decode x with vector := x.map fun x => min (max x p0.lower) p0.upper } : CubicParam) = _
    rw [clip_box x _ _ hx.2]
    rfl
  rw [this]
  show (CubicParam.getStructure _).toOption = _
  rw [hs]
  rfl

/-- **C123**, Hermite parametrizations (`geometry` and `vec2f` have the same number of columns after the constructor). -/
theorem hermite_design_gradient {sh : Shape} (p0 : HermiteParam) (hg : p0.geometry.cols = p0.vec2f.cols) (o : OverlapFn sh p0.vec2f.rows)
    (es is : List (StructFn p0.vec2f.rows)) (x : List ℝ) (hx : x ∈ box p0.vec2f.cols p0.lower p0.upper)
    (s : List ℝ) (hs : (p0.at x p0.k).getStructure = .ok s) (ho : o.Good s) :
    ∃ γ, stated (structWorld hermiteClass p0.vec2f.rows) ⟨o.fn, es, is⟩ p0 .jac x = some γ ∧
      IsGradientOn (stated (structWorld hermiteClass p0.vec2f.rows) ⟨o.fn, es, is⟩ p0 .fun_) γ x
        (box p0.vec2f.cols p0.lower p0.upper) := by
  refine (stated_gradients hermiteClass ⟨o.fn, es, is⟩ p0 x _ hx (hermite_smooth p0 hg x hx) s ?_).1 ho.regular
  show ((p0.decode (.array x)).toOption.bind fun r => some r.project).bind _ = _
  simp only [HermiteParam.decode]
  rw [if_pos (hx.1.trans hg.symm)]
  simp only [Except.toOption, Option.bind_some, HermiteParam.project]
  rw [clip_box x _ _ hx.2]
  show (HermiteParam.getStructure (p0.at x p0.k)).toOption = _
  rw [hs]
  rfl

/-- **C123**, parametrizations by pixels. -/
theorem direct_design_gradient {sh : Shape} (p0 : Direct) (x : List ℝ) (o : OverlapFn sh x.length) (es is : List (StructFn x.length))
    (hx : x ∈ directBox p0) (ho : o.Good x) :
    ∃ γ, stated (structWorld directClass x.length) ⟨o.fn, es, is⟩ p0 .jac x = some γ ∧
      IsGradientOn (stated (structWorld directClass x.length) ⟨o.fn, es, is⟩ p0 .fun_) γ x (directBox p0) := by
  have hsm := direct_smooth p0 x hx
  refine (stated_gradients directClass ⟨o.fn, es, is⟩ p0 x _ hx hsm x ?_).1 ho.regular
  obtain ⟨p, A, -, -, -, -, h5⟩ := hsm
  obtain ⟨S, s1, -, -⟩ := h5 x {0} rfl rfl (by
    intro t ht
    rw [Set.mem_singleton_iff.1 ht, line_zero x x rfl]
    exact hx)
  have h0 := s1 0 rfl
  rw [line_zero x x rfl] at h0
  rw [h0]
  cases hp : directClass.fromVector p0 x with
  | none => rw [hp] at h0; cases h0
  | some q =>
    rw [hp, Option.bind_some] at h0
    have hv : q.vector = x := by
      obtain ⟨h1, h2, h3⟩ := hx
      have hp' : Direct.project { p0 with vector := x } = some q := hp
      rw [Direct.project, if_pos ⟨h1.symm, h2.symm⟩] at hp'
      cases hp'
      apply List.ext_getElem
      · simp; omega
      · intro i k1 k2
        obtain ⟨c1, c2⟩ := h3 i k2
        rw [List.getElem?_eq_getElem (by omega)] at c1 c2
        simp only [List.getElem_zipWith, List.getElem_zip]
        revert c1 c2
        generalize p0.lower.entries[i]'(by omega) = l
        generalize p0.upper.entries[i]'(by omega) = u
        intro c1 c2
        cases l <;> cases u <;> simp only [clip1]
        · exact min_eq_left (c2 _ rfl)
        · exact max_eq_left (c1 _ rfl)
        · rw [max_eq_left (c1 _ rfl), min_eq_left (c2 _ rfl)]
    have : (some q.vector : Option (List ℝ)) = some (S 0) := h0
    rw [← this, hv]

/-- **C123**, the run. Whatever the library does, an optimization of a cubic parametrization, with at most one constraint of each kind, is
a run of the library on a problem whose gradients are gradients at all vectors in the bounds at which the simulation is regular, and
the parametrization ends with the vector that the library ends with.
Missing: vectors that are not in the bounds (`clipped_gradient_false`), several constraints of a kind (C121). -/
theorem cubic_design_run_partial {sh : Shape} (p0 : CubicParam) (o : OverlapFn sh p0.vec2f.rows) (es is : List (StructFn p0.vec2f.rows))
    (h1 : es.length ≤ 1) (h2 : is.length ≤ 1) (st : Settings ℝ) (cb : Bool) (scipy : Handed ℝ → Client ℝ) (it : Nat)
    (hu : ∀ h, UsesGiven st.method (scipy h)) :
    let w := structWorld cubicClass p0.vec2f.rows
    let f := stated w ⟨o.fn, es, is⟩ p0
    let r := optimize w st ⟨o.fn, es, is⟩ cb scipy it p0
    let run := ideal f (scipy (handed w st ⟨o.fn, es, is⟩ p0))
    (r.raised = true ↔ run.2 = none) ∧ (∀ x, run.2 = some x → r.param = p0.fromVector x) ∧
    ∀ x ∈ box p0.vec2f.cols p0.lower p0.upper, ∀ s, (p0.decode x).getStructure = .ok s → o.Good s →
      ∃ γ, f .jac x = some γ ∧ IsGradientOn (f .fun_) γ x (box p0.vec2f.cols p0.lower p0.upper) := by
  intro w f r run
  obtain ⟨a, b, -⟩ := runs_stated_problem_partial w st ⟨o.fn, es, is⟩ cb scipy it p0
    (cubic_overwrites (evalFun cubicClass) (evalGrad cubicClass)) h1 h2 hu
  refine ⟨?_, fun x hx => b x _ hx rfl, fun x hx s hs ho => cubic_design_gradient p0 o es is x hx s hs ho⟩
  rw [a]
  constructor
  · rintro (h | ⟨x, -, hx⟩)
    · exact h
    · cases hx
  · exact Or.inl

/-- Outside the bounds the vector is clipped, so that the function does not change, but the gradient given is that at the bound. -/
theorem clipped_gradient_false : ¬ ∀ (o : StructFn 1) (p0 : Direct) (x γ s : List ℝ),
    (directClass.fromVector p0 x).bind directClass.getStructure = some s → RegularAt o s →
    stated (structWorld directClass 1) ⟨o, [], []⟩ p0 .jac x = some γ →
    IsGradientOn (stated (structWorld directClass 1) ⟨o, [], []⟩ p0 .fun_) γ x {y | y.length = 1} := by
  intro H
  let o : StructFn 1 := ⟨fun s => some (s.getD 0 0), fun _ => some fun _ => 1⟩
  let p0 : Direct := ⟨[0], .tuple [some 0], .tuple [some 1]⟩
  have hfrom : ∀ y : ℝ, directClass.fromVector p0 [y] = some ⟨[min (max y 0) 1], .tuple [some 0], .tuple [some 1]⟩ := by
    intro y
    rfl
  have hc : (min (max (2 : ℝ) 0) 1) = 1 := by norm_num
  obtain ⟨-, h⟩ := H o p0 [2] [1] [1] (by rw [hfrom, hc]; rfl)
    ⟨fun _ => 1, fun z => z 0, rfl, fun s' _ => rfl, ContinuousLinearMap.proj (R := ℝ) (φ := fun _ : Fin 1 => ℝ) 0, by
      intro v; simp, ContinuousLinearMap.hasFDerivAt (ContinuousLinearMap.proj (R := ℝ) (φ := fun _ : Fin 1 => ℝ) 0)⟩ (by
      show (directClass.fromVector p0 [2]).bind (evalGrad directClass o) = _
      rw [hfrom, hc]
      simp [evalGrad, directClass, o, rowMul, SpMat.eye])
  obtain ⟨φ, a, b⟩ := h [1] Set.univ rfl trivial (fun t _ => rfl)
  rw [hasDerivWithinAt_univ] at b
  have hφ : ∀ t : ℝ, φ t = min (max (2 + t * 1) 0) 1 := by
    intro t
    have ht := a t trivial
    have : stated (structWorld directClass 1) ⟨o, [], []⟩ p0 .fun_ (line [2] [1] t) = some [min (max (2 + t * 1) 0) 1] := by
      show (directClass.fromVector p0 [2 + t * 1]).bind (evalFun directClass o) = _
      rw [hfrom]
      rfl
    rw [this] at ht
    simpa using ht.symm
  have hconst : φ =ᶠ[nhds 0] fun _ => (1 : ℝ) := by
    filter_upwards [Ioi_mem_nhds (show (-1 : ℝ) < 0 by norm_num)] with t ht
    have ht : -1 < t := ht
    rw [hφ, min_eq_right]
    exact le_max_of_le_left (by linarith)
  have h0 := (hasDerivAt_const (0 : ℝ) (1 : ℝ)).congr_of_eventuallyEq hconst
  have := h0.unique b
  simp at this

/-- The hypotheses of `direct_design_gradient` are met, for every simulation with a source: one entry that is the permittivity of all
cells, the overlap vector is the field itself, and the objective is the square of the absolute value. -/
example {sh : Shape} {c : SimCfg sh} (h : GoodSim c) (hJ : c.J ≠ 0) : ∃ o : OverlapFn sh ([0] : List ℝ).length, o.q = 1 ∧ (∀ i, (o.sims i).c = c) ∧ o.Good [0] ∧
    ([0] : List ℝ) ∈ directBox ⟨[0], .tuple [some 0], .tuple [some 1]⟩ := by
  obtain ⟨a, E, ⟨A, hA, hu⟩, hE, hov⟩ := lit_case h hJ
  refine ⟨⟨1, fun _ => ⟨c, fun _ => (a : ℂ), fun _ _ => 1, true, 1, fun _ => star E⟩, fun v => v 0 0 ^ 2, fun v _ _ => 2 * v 0 0⟩,
    rfl, fun _ => rfl, ⟨fun _ => h, fun _ _ => ⟨fun _ => Complex.ofReal_im a, fun _ _ => Complex.one_im⟩, rfl, ?_, ?_, ?_⟩, rfl, rfl, ?_⟩
  · exact fun _ => ⟨A, hA, hu⟩
  · intro _ v hv i
    simp only [OverlapSim.mags, List.length_cons, List.length_nil, if_true] at hv
    rw [show simFields c (epsilonEval (fun _ => (a : ℂ)) (fun _ _ => 1) fun j : Fin 1 => ([0] : List ℝ).getD j 0) = some E from hE] at hv
    simp only [Option.map_some, Option.some.injEq] at hv
    rw [← hv]
    exact norm_ne_zero_iff.2 hov
  · intro v _
    let π : (Fin 1 → Fin 1 → ℝ) →L[ℝ] ℝ := (ContinuousLinearMap.proj (R := ℝ) (φ := fun _ : Fin 1 => ℝ) 0).comp
      (ContinuousLinearMap.proj (R := ℝ) (φ := fun _ : Fin 1 => Fin 1 → ℝ) 0)
    refine ⟨(2 * v 0 0) • π, by intro u; simp [π], ?_⟩
    have h1 : HasFDerivAt (fun u : Fin 1 → Fin 1 → ℝ => u 0 0) π v := π.hasFDerivAt
    simpa using h1.pow 2
  · intro i hi
    have : i = 0 := by simpa using hi
    subst this
    refine ⟨fun l hl => ?_, fun u hl => ?_⟩
    · have : some (some (0 : ℝ)) = some (some l) := hl
      cases this; rfl
    · have : some (some (1 : ℝ)) = some (some u) := hl
      cases this; exact zero_le_one

end Verif.Plan.Inv
