import Verif.Exec.Backward
import Mathlib.Analysis.Calculus.FDeriv.Pi
import Mathlib.Analysis.Calculus.FDeriv.Comp
import Mathlib.Analysis.Calculus.FDeriv.Add
import Mathlib.Analysis.Calculus.FDeriv.Mul
/-
Property theorems about the invdes gradient (C04).

Node values and the parametrization vector live in real normed spaces `E` and `P` (all node
values in one space `E`, a simplification: arrays of different shapes embed in one space).
Gradients with respect to a node value are linear functionals on `E`, gradients with respect
to the parametrization linear functionals on `P`; "the" gradient array is the representing
vector.
-/
namespace Verif.Exec
variable {V : Type} [DecidableEq V]
variable {P E : Type} [NormedAddCommGroup P] [NormedSpace ℝ P] [NormedAddCommGroup E]
  [NormedSpace ℝ E]

/-- A user problem: graph, the variable nodes, old-style functions of the parametrization, node
functions, and the structure map of the parametrization. -/
structure Problem (V P E : Type) where
  net : Net V
  isVar : V → Bool
  /-- old-style functions: `calculate_objective_function(param)` -/
  old : V → Option (P → E)
  /-- new-style functions: `eval(input_vals)` -/
  f : V → List E → E
  /-- `param.get_structure()` as a function of the parametrization vector -/
  struct : P → E

/-- Value of a node function for a given parametrization vector. -/
def Problem.fn (Q : Problem V P E) (p : P) (v : V) (xs : List E) : E :=
  match Q.old v with
  | some o => o p
  | none => Q.f v xs

/-- `φ` is the value of node `v` as a function of the parametrization vector. -/
def Problem.IsValue (Q : Problem V P E) (v : V) (φ : P → E) : Prop :=
  ∀ p, Evals Q.net (Q.fn p) (fun w => if Q.isVar w = true then some (Q.struct p) else none) v (φ p)

/-- The local derivative information the nodes report at the point `p` is right:
* `calculate_gradient` of an old-style function is its derivative,
* `grad(input_vals, grad_val)` of a new-style function is the list of `grad_val` composed with
  the partial derivatives of `eval` at `input_vals`,
* `param.calculate_gradient()` is the derivative of `get_structure`. -/
structure LocalGradsOk (Q : Problem V P E) (p : P) (ops : GradOps V E (E →L[ℝ] ℝ) (P →L[ℝ] ℝ))
    (pg : (E →L[ℝ] ℝ) → (P →L[ℝ] ℝ)) : Prop where
  old_none : ∀ v, Q.old v = none → ops.old v = none
  old_some : ∀ v o, Q.old v = some o → ∃ D : P →L[ℝ] E, HasFDerivAt o D p ∧
    ops.old v = some (fun g => g.comp D)
  new : ∀ v, Q.old v = none → ∀ xs : Fin (Q.net.inputs v).length → E,
    ∃ D : Fin (Q.net.inputs v).length → (E →L[ℝ] E),
      HasFDerivAt (fun ys : Fin (Q.net.inputs v).length → E => Q.f v (List.ofFn ys))
        (∑ i, (D i).comp (ContinuousLinearMap.proj i)) xs ∧
      ∀ g, ops.grad v (List.ofFn xs) g = List.ofFn (fun i => g.comp (D i))
  struct : ∃ D : P →L[ℝ] E, HasFDerivAt Q.struct D p ∧ ∀ g, pg g = g.comp D

theorem zip_ofFn_sum {A B : Type} {R : Type} [AddCommMonoid R] (us : List A) (h : Fin us.length → B)
    (k : A → B → R) :
    ((us.zip (List.ofFn h)).map (fun z => k z.1 z.2)).sum = ∑ i, k (us.get i) (h i) := by
  induction us with
  | nil => simp
  | cons u us ih =>
    have h1 : List.ofFn h = h 0 :: List.ofFn (fun i : Fin us.length => h i.succ) := by
      exact List.ofFn_succ (f := h)
    rw [h1]
    simp only [List.zip_cons_cons, List.map_cons, List.sum_cons]
    rw [ih (fun i => h i.succ)]
    exact (Fin.sum_univ_succ (fun i : Fin (us.length + 1) => k ((u :: us).get i) (h i))).symm

/-- Full statement of **C04** would allow any heavy labelling; as for C01 heavy nodes feeding
heavy nodes directly make the evaluation raise. -/
theorem invdes_eval_grad_is_derivative_partial (Q : Problem V P E) (hN : Acyclic Q.net)
    (ord : List V → List V) (hord : ∀ l, (ord l).Perm l) (p : P) (out : V) (seed : E →L[ℝ] ℝ)
    (ops : GradOps V E (E →L[ℝ] ℝ) (P →L[ℝ] ℝ)) (pg : (E →L[ℝ] ℝ) → (P →L[ℝ] ℝ))
    (hops : LocalGradsOk Q p ops pg)
    (hone : ∀ x y, Reach Q.net [out] x → Reach Q.net [out] y → Q.isVar x = true →
      Q.isVar y = true → x = y)
    (hvar : ∀ v, Q.isVar v = true → Q.net.heavy v = false ∧ Q.net.inputs v = [] ∧ Q.old v = none)
    (hold : ∀ v, (Q.old v).isSome = true → Q.net.heavy v = false ∧ Q.net.inputs v = [])
    (hhh : ∀ v, Reach Q.net [out] v → Q.net.heavy v = true →
      ∀ u ∈ Q.net.inputs v, Q.net.heavy u = false)
    (φ : P → E) (hφ : Q.IsValue out φ) :
    ∃ n₀, ∀ n, n₀ ≤ n → ∃ r : P →L[ℝ] ℝ,
      evalGrad Q.net Q.isVar (Q.fn p) ops ord n (Q.struct p) seed pg out = .ok r ∧
      HasFDerivAt (fun q => seed (φ q)) r p := by
  classical
  obtain ⟨n₀, h₀⟩ := createGraph_terminates hN [out]
  refine ⟨n₀, fun n hn => ?_⟩
  obtain ⟨g, hg⟩ := h₀ n hn
  -- node values as functions of the parameter
  have hex : ∀ v q, ∃ a, Evals Q.net (Q.fn q)
      (fun w => if Q.isVar w = true then some (Q.struct q) else none) v a :=
    fun v q => evals_exists hN _ _ v
  choose Φ hΦ using hex
  have hrec : ∀ v q, Q.isVar v = false → Q.old v = none →
      Φ v q = Q.f v (List.ofFn (fun i => Φ ((Q.net.inputs v).get i) q)) := by
    intro v q hv ho
    apply (hΦ v q).unique
    have hlen : (List.ofFn (fun i => Φ ((Q.net.inputs v).get i) q)).length =
        (Q.net.inputs v).length := by simp
    have := Evals.node (N := Q.net) (f := Q.fn q)
      (ov := fun w => if Q.isVar w = true then some (Q.struct q) else none) (v := v)
      (as := List.ofFn (fun i => Φ ((Q.net.inputs v).get i) q)) (by simp [hv]) hlen (by
        intro z hz
        rw [List.mem_iff_getElem] at hz
        obtain ⟨i, hi, rfl⟩ := hz
        simp only [List.getElem_zip, List.getElem_ofFn]
        exact hΦ _ q)
    simpa [Problem.fn, ho] using this
  have hvarv : ∀ v q, Q.isVar v = true → Φ v q = Q.struct q := by
    intro v q hv
    exact (hΦ v q).unique (Evals.override (by simp [hv]))
  have holdv : ∀ v q o, Q.isVar v = false → Q.old v = some o → Φ v q = o q := by
    intro v q o hv ho
    apply (hΦ v q).unique
    have hin := (hold v (by rw [ho]; rfl)).2
    have := Evals.node (N := Q.net) (f := Q.fn q)
      (ov := fun w => if Q.isVar w = true then some (Q.struct q) else none) (v := v)
      (as := []) (by simp [hv]) (by simp [hin]) (by rw [hin]; simp)
    simpa [Problem.fn, ho] using this
  -- every node value is differentiable at p
  have hder : ∀ v, ∃ T : P →L[ℝ] E, HasFDerivAt (Φ v) T p := by
    intro v
    obtain ⟨rank, hr⟩ := hN
    induction hk : rank v using Nat.strongRecOn generalizing v with
    | ind k ih =>
      by_cases hv : Q.isVar v = true
      · obtain ⟨D, hD, _⟩ := hops.struct
        refine ⟨D, ?_⟩
        have : Φ v = Q.struct := funext (fun q => hvarv v q hv)
        rw [this]; exact hD
      · simp only [Bool.not_eq_true] at hv
        cases ho : Q.old v with
        | some o =>
          obtain ⟨D, hD, _⟩ := hops.old_some v o ho
          refine ⟨D, ?_⟩
          have : Φ v = o := funext (fun q => holdv v q o hv ho)
          rw [this]; exact hD
        | none =>
          have hin : ∀ i, ∃ T : P →L[ℝ] E, HasFDerivAt (Φ ((Q.net.inputs v).get i)) T p := fun i =>
            ih _ (hk ▸ hr v _ (List.get_mem _ _)) _ rfl
          choose T hT using hin
          obtain ⟨D, hD, _⟩ := hops.new v ho (fun i => Φ ((Q.net.inputs v).get i) p)
          have hpi : HasFDerivAt (fun q => fun i => Φ ((Q.net.inputs v).get i) q)
              (ContinuousLinearMap.pi T) p := hasFDerivAt_pi.2 hT
          have hc := hD.comp p hpi
          refine ⟨(∑ i, (D i).comp (ContinuousLinearMap.proj i)).comp (ContinuousLinearMap.pi T), ?_⟩
          · have : Φ v = (fun ys : Fin (Q.net.inputs v).length → E => Q.f v (List.ofFn ys)) ∘
                (fun q => fun i => Φ ((Q.net.inputs v).get i) q) :=
              funext (fun q => hrec v q hv ho)
            rw [this]
            exact hc
  choose T hT using hder
  obtain ⟨r, hr, hpair⟩ := evalGrad_pairing hN Q.isVar (Q.fn p) ops ord hord (Q.struct p) seed pg out
    hone
    (fun v _ hv => ⟨(hvar v hv).1, (hvar v hv).2.1, hops.old_none v (hvar v hv).2.2⟩)
    (fun v _ hv => hold v (by
      cases ho : Q.old v with
      | some o => rfl
      | none => rw [hops.old_none v ho] at hv; cases hv))
    hhh hg
  refine ⟨r, hr, ?_⟩
  have hφΦ : φ = Φ out := funext (fun q => (hφ q).unique (hΦ out q))
  have hr' : r = seed.comp (T out) := by
    ext dp
    have := hpair (E := E) (R := ℝ) (fun g t => g t) (fun d => d dp) (fun v => T v dp)
      (fun v => Φ v p) (by simp) (by simp) (by simp) (by simp) (fun v _ => hΦ v p)
      (by
        intro v _ c hc x
        cases ho : Q.old v with
        | none => rw [hops.old_none v ho] at hc; cases hc
        | some o =>
          obtain ⟨D, hD, hD'⟩ := hops.old_some v o ho
          rw [hD'] at hc
          injection hc with hc
          subst hc
          have hv : Q.isVar v = false := by
            by_contra h
            have := (hvar v (by simpa using h)).2.2
            rw [ho] at this; cases this
          have hTD : T v = D := by
            apply (hT v).unique
            have : Φ v = o := funext (fun q => holdv v q o hv ho)
            rw [this]; exact hD
          simp [hTD])
      (by
        intro v _ hv x
        obtain ⟨D, hD, hD'⟩ := hops.struct
        have hTD : T v = D := by
          apply (hT v).unique
          have : Φ v = Q.struct := funext (fun q => hvarv v q hv)
          rw [this]; exact hD
        simp [hD', hTD])
      (by
        intro v _ hv ho x
        have hoQ : Q.old v = none := by
          cases ho' : Q.old v with
          | none => rfl
          | some o =>
            obtain ⟨D, _, hD'⟩ := hops.old_some v o ho'
            rw [hD'] at ho; cases ho
        obtain ⟨D, hD, hD'⟩ := hops.new v hoQ (fun i => Φ ((Q.net.inputs v).get i) p)
        have hpi : HasFDerivAt (fun q => fun i => Φ ((Q.net.inputs v).get i) q)
            (ContinuousLinearMap.pi (fun i => T ((Q.net.inputs v).get i))) p :=
          hasFDerivAt_pi.2 (fun i => hT _)
        have hc := hD.comp p hpi
        have hTv : T v = (∑ i, (D i).comp (ContinuousLinearMap.proj i)).comp
            (ContinuousLinearMap.pi (fun i => T ((Q.net.inputs v).get i))) := by
          apply (hT v).unique
          have : Φ v = (fun ys : Fin (Q.net.inputs v).length → E => Q.f v (List.ofFn ys)) ∘
              (fun q => fun i => Φ ((Q.net.inputs v).get i) q) :=
            funext (fun q => hrec v q hv hoQ)
          rw [this]
          exact hc
        have hmap : (Q.net.inputs v).map (fun u => Φ u p) =
            List.ofFn (fun i => Φ ((Q.net.inputs v).get i) p) := by
          apply List.ext_getElem
          · simp
          · intro i h1 h2; simp
        rw [hmap, hD', zip_ofFn_sum (Q.net.inputs v) (fun i => x.comp (D i))
          (fun u (y : E →L[ℝ] ℝ) => y (T u dp)), hTv]
        simp)
    simpa using this
  rw [hr', hφΦ]
  exact seed.hasFDerivAt.comp p (hT out)

/-! ### A concrete instance: `x * x` with `x` the variable -/

/-- Node 1 squares node 0 (listed twice), node 0 is the variable. -/
def sqProblem : Problem Nat ℝ ℝ where
  net := { inputs := fun v => if v = 1 then [0, 0] else [], heavy := fun _ => false }
  isVar := fun v => v == 0
  old := fun _ => none
  f := fun v xs => if v = 1 then xs.prod else 0
  struct := fun p => p

/-- Its local gradients, as `Product.grad` reports them. -/
noncomputable def sqOps : GradOps Nat ℝ (ℝ →L[ℝ] ℝ) (ℝ →L[ℝ] ℝ) where
  grad := fun v xs g => if v = 1 then
      [g.comp ((xs.getD 1 0) • ContinuousLinearMap.id ℝ ℝ),
       g.comp ((xs.getD 0 0) • ContinuousLinearMap.id ℝ ℝ)]
    else []
  old := fun _ => none

theorem sqOps_ok (p : ℝ) : LocalGradsOk sqProblem p sqOps (fun g => g) := by
  refine ⟨fun _ _ => rfl, fun v o h => by simp [sqProblem] at h, ?_, ?_⟩
  · intro v _ xs
    by_cases hv : v = 1
    · subst hv
      -- the arity of node 1 is two
      change Fin 2 → ℝ at xs
      refine ⟨fun i : Fin 2 => (if i = 0 then xs 1 else xs 0) • ContinuousLinearMap.id ℝ ℝ, ?_, ?_⟩
      · change HasFDerivAt (fun ys : Fin 2 → ℝ => (List.ofFn ys).prod)
          (∑ i : Fin 2, ((if i = 0 then xs 1 else xs 0) • ContinuousLinearMap.id ℝ ℝ).comp
            (ContinuousLinearMap.proj i)) xs
        have h0 : HasFDerivAt (fun ys : Fin 2 → ℝ => ys 0)
          (ContinuousLinearMap.proj (R := ℝ) (φ := fun _ : Fin 2 => ℝ) 0) xs :=
          (ContinuousLinearMap.proj (R := ℝ) (φ := fun _ : Fin 2 => ℝ) 0).hasFDerivAt
        have h1 : HasFDerivAt (fun ys : Fin 2 → ℝ => ys 1)
          (ContinuousLinearMap.proj (R := ℝ) (φ := fun _ : Fin 2 => ℝ) 1) xs :=
          (ContinuousLinearMap.proj (R := ℝ) (φ := fun _ : Fin 2 => ℝ) 1).hasFDerivAt
        have h2 := h0.mul h1
        have e : (fun ys : Fin 2 → ℝ => (List.ofFn ys).prod) = fun ys => ys 0 * ys 1 := by
          funext ys
          simp [List.ofFn_succ]
        rw [e]
        refine h2.congr_fderiv ?_
        ext y
        simp [Fin.sum_univ_two]
        try ring
      · intro g
        change sqOps.grad 1 (List.ofFn xs) g = List.ofFn (fun i : Fin 2 =>
          g.comp ((if i = 0 then xs 1 else xs 0) • ContinuousLinearMap.id ℝ ℝ))
        simp [sqOps, List.ofFn_succ]
    · have hin : (sqProblem.net.inputs v) = [] := by simp [sqProblem, hv]
      have hlen : (sqProblem.net.inputs v).length = 0 := by rw [hin]; rfl
      refine ⟨fun _ => 0, ?_, ?_⟩
      · have e : (fun ys : Fin (sqProblem.net.inputs v).length → ℝ => sqProblem.f v (List.ofFn ys)) =
            fun _ => 0 := by funext ys; simp [sqProblem, hv]
        rw [e]
        have : (∑ i : Fin (sqProblem.net.inputs v).length, ((0 : ℝ →L[ℝ] ℝ)).comp
            (ContinuousLinearMap.proj (R := ℝ) (φ := fun _ => ℝ) i)) = 0 := by simp
        rw [this]
        exact hasFDerivAt_const _ _
      · intro g
        have : IsEmpty (Fin (sqProblem.net.inputs v).length) := by rw [hlen]; infer_instance
        rw [List.ofFn_eq_nil_iff.2 hlen]
        simp [sqOps, hv, hin]
  · exact ⟨ContinuousLinearMap.id ℝ ℝ, hasFDerivAt_id p, fun g => by ext; simp⟩

/-- All hypotheses of the theorem hold for `x * x`. -/
example (p : ℝ) : Acyclic sqProblem.net ∧ LocalGradsOk sqProblem p sqOps (fun g => g) ∧
    (∀ x y, Reach sqProblem.net [1] x → Reach sqProblem.net [1] y → sqProblem.isVar x = true →
      sqProblem.isVar y = true → x = y) ∧
    sqProblem.IsValue 1 (fun p => p * p) := by
  refine ⟨⟨fun v => v, ?_⟩, sqOps_ok p, ?_, ?_⟩
  · intro v u hu
    show u < v
    simp only [sqProblem] at hu
    split at hu
    · simp at hu; omega
    · simp at hu
  · intro x y _ _ hx hy
    simp [sqProblem] at hx hy
    rw [hx, hy]
  · intro q
    have h0 : Evals sqProblem.net (sqProblem.fn q)
        (fun w => if sqProblem.isVar w = true then some (sqProblem.struct q) else none) 0 q :=
      Evals.override (by simp [sqProblem])
    have := Evals.node (N := sqProblem.net) (f := sqProblem.fn q)
      (ov := fun w => if sqProblem.isVar w = true then some (sqProblem.struct q) else none)
      (v := 1) (as := [q, q]) (by simp [sqProblem]) (by simp [sqProblem]) (by
        intro z hz
        simp only [sqProblem, if_true, List.zip_cons_cons, List.zip_nil_left, List.mem_cons,
          List.not_mem_nil, or_false, or_self] at hz
        subst hz
        exact h0)
    simpa [Problem.fn, sqProblem] using this

end Verif.Exec
