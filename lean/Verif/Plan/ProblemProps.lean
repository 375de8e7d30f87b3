import Verif.Plan.ProblemLemmas
import Mathlib.Analysis.Calculus.FDeriv.Pow
import Mathlib.Tactic.FinCases
import Mathlib.LinearAlgebra.Matrix.Notation
/-
Property C115: the scipy action of goos solves the problem written in the plan.
-/
set_option linter.unusedSectionVars false
namespace Verif.Plan
open Verif.Exec (Net Acyclic Evals Reach HGrad IsLocalGrad Owned)
variable {Name : Type} [DecidableEq Name]
variable {E : Type} [NormedAddCommGroup E] [NormedSpace ℝ E]

/-- A plan as the theorems need it: a graph without cycles; distinct variables, at least one of
them not frozen, that are leaves of the graph; nodes whose reported gradients are the derivatives
of their functions and are not shared arrays (C05); no heavy node feeding a heavy node. -/
structure GoodPlan (N : Net Name) (f : Name → List E → E) (hg : HGrad Name E (E →L[ℝ] ℝ))
    (vs : Vars Name (Arr ℝ)) : Prop where
  acyclic : Acyclic N
  nodup : (vs.map Prod.fst).Nodup
  shaped : WellShaped vs
  thawed : thawedNames vs ≠ []
  leaf : ∀ v ∈ vs.map Prod.fst, N.heavy v = false ∧ N.inputs v = []
  grad : ∀ v, v ∉ vs.map Prod.fst →
    ∃ gr, IsLocalGrad (N.inputs v).length (f v) gr ∧ Owned (N.inputs v).length (hg v) gr
  light : ∀ v, N.heavy v = true → ∀ u ∈ N.inputs v, N.heavy u = false

/-- `F x` is the value of the node when the variables that are not frozen have the entries `x` and
the frozen ones keep their values. -/
def IsNodeFun (N : Net Name) (f : Name → List E → E) (rep : ArrayRep E) (vs : Vars Name (Arr ℝ))
    (node : Name) (F : (Fin (flat vs).length → ℝ) → ℝ) : Prop :=
  ∀ x, ∃ e, Evals N f (overrides rep (assign vs (List.ofFn x))) node e ∧ F x = rep.entry e

/-- `G x` is the gradient of `F` at `x`. -/
def IsGradient {n : Nat} (F : (Fin n → ℝ) → ℝ) (G : (Fin n → ℝ) → Fin n → ℝ) : Prop :=
  ∀ x, HasFDerivAt F (∑ j, G x j • (ContinuousLinearMap.proj j : (Fin n → ℝ) →L[ℝ] ℝ)) x

/-- Every node is a function of the entries of the variables that are not frozen. -/
theorem node_function_exists (N : Net Name) (hN : Acyclic N) (f : Name → List E → E)
    (rep : ArrayRep E) (vs : Vars Name (Arr ℝ)) (node : Name) :
    ∃ F, IsNodeFun N f rep vs node F ∧ ∀ F', IsNodeFun N f rep vs node F' → F' = F := by
  choose e he using fun x : Fin (flat vs).length → ℝ =>
    Exec.evals_exists hN f (overrides rep (assign vs (List.ofFn x))) node
  refine ⟨fun x => rep.entry (e x), fun x => ⟨e x, he x, rfl⟩, fun F' h => funext fun x => ?_⟩
  obtain ⟨e', h1, h2⟩ := h x
  rw [h2, h1.unique (he x)]

/-- What `plan.eval_node` and `plan.eval_grad` give the optimizer is the value of the node and its
gradient with respect to all entries of all variables that are not frozen, for every schedule. -/
theorem plan_eval_correct (N : Net Name) (f : Name → List E → E) (hg : HGrad Name E (E →L[ℝ] ℝ))
    (vs : Vars Name (Arr ℝ)) (hp : GoodPlan N f hg vs)
    (ord : Vars Name (Arr ℝ) → List Name → List Name) (hord : ∀ vs l, (ord vs l).Perm l)
    (rep : ArrayRep E) (kn : E →L[ℝ] ℝ) (node : Name) (F : (Fin (flat vs).length → ℝ) → ℝ)
    (hF : IsNodeFun N f rep vs node F) {fuel : Nat} {g : List (Name × List Name)}
    (hfuel : Exec.createGraph N fuel [node] = some g) :
    ∃ G, IsGradient F G ∧ ∀ x,
      planVal N f ord fuel rep node (assign vs (List.ofFn x)) = some [F x] ∧
      planGrad N f hg ord fuel rep kn node (thawedNames vs) (assign vs (List.ofFn x)) =
        some (List.ofFn (G x)) := by
  classical
  obtain ⟨hN, hnd, hw, hth, hleaf, hgrad, hlight⟩ := hp
  set pv := vs.map Prod.fst with hpv
  choose φ hφ using fun q : Fin pv.length → E => Exec.evals_exists hN f (Exec.assign pv q) node
  have hFφ : F = fun x => rep.entry (φ (point rep vs x)) := by
    funext x
    obtain ⟨e, h1, h2⟩ := hF x
    rw [h2]
    rw [overrides_point] at h1
    rw [h1.unique (hφ _)]
  have hstep : ∀ x, ∃ ρ : Name → (E →L[ℝ] ℝ),
      Exec.evalGradGoos N f hg (ord (assign vs (List.ofFn x))) fuel
        (overrides rep (assign vs (List.ofFn x))) rep.entry kn (thawedNames vs) node =
        .ok ((thawedNames vs).map ρ) ∧
      HasFDerivAt (fun q => rep.entry (φ q))
        (∑ i, (ρ (pv.get i)).comp (ContinuousLinearMap.proj i)) (point rep vs x) := by
    intro x
    rw [overrides_point]
    exact Exec.goos_eval_grad_of_graph N hN f hg _ (hord _) pv (thawedNames vs) hnd hleaf hgrad node
      (fun v _ => hlight v) rep.entry kn (point rep vs x) φ hφ hfuel
  choose ρ h1 h2 using hstep
  have hlen : ∀ x, (gradBlocks rep vs (ρ x)).length = (flat vs).length :=
    fun x => gradBlocks_length rep vs (ρ x)
  refine ⟨fun x j => (gradBlocks rep vs (ρ x)).getD j 0, ?_, fun x => ⟨?_, ?_⟩⟩
  · intro x
    rw [hFφ]
    have h := (h2 x).comp x (point_hasFDerivAt rep vs x)
    refine h.congr_fderiv (ContinuousLinearMap.ext fun dx => Eq.symm ?_)
    simp only [_root_.sum_apply, _root_.smul_apply, ContinuousLinearMap.proj_apply, smul_eq_mul,
      ContinuousLinearMap.comp_apply, ContinuousLinearMap.pi_apply, partMap_apply]
    have hpair := pairing_blocks rep vs hnd 0 (ext dx) (ρ x)
    rw [← hpv] at hpair
    have e1 : ∑ i : Fin pv.length, ρ x (pv.get i) (part rep vs 0 (ext dx) (pv.get i)) =
        (pv.map fun w => ρ x w (part rep vs 0 (ext dx) w)).sum := by
      rw [← List.sum_ofFn]
      congr 1
      apply List.ext_getElem <;> simp
    rw [e1, hpair, ← Fin.sum_univ_eq_sum_range
      (fun j => (gradBlocks rep vs (ρ x)).getD j 0 * ext dx (0 + j))]
    refine Finset.sum_congr rfl fun j _ => ?_
    simp [ext]
  · obtain ⟨vals, tr, k1, k2, k3, -⟩ := Exec.evalFun_of_graph hN f
      (overrides rep (assign vs (List.ofFn x))) (ord (assign vs (List.ofFn x))) (hord _) [node]
      (by
        intro v _ hh
        rw [overrides_point]
        unfold Exec.assign
        rw [dif_neg]
        intro hm
        rw [(hleaf v hm).1] at hh
        cases hh)
      (fun v _ => hlight v) hfuel
    obtain ⟨e, rfl⟩ : ∃ e, vals = [e] := by
      rcases vals with _ | ⟨e, _ | ⟨e', vals⟩⟩ <;> simp at k2
      exact ⟨e, rfl⟩
    have hev := k3 (node, e) (by simp)
    obtain ⟨e', m1, m2⟩ := hF x
    unfold planVal
    rw [k1]
    show some [rep.entry e] = _
    rw [m2, m1.unique hev]
  · unfold planGrad
    rw [h1 x]
    show some _ = some _
    have hx : (List.ofFn x).length = (flat vs).length := by simp
    rw [zip_map_blocks rep (assign vs (List.ofFn x)) vs (ρ x) hnd
      (fun e he => by rw [entries_assign vs _ hx]; exact entries_of_mem vs hnd e he)]
    congr 1
    apply List.ext_getElem
    · simp [hlen]
    · intro i a b
      rw [List.getElem_ofFn]
      exact (List.getD_eq_getElem _ _ a).symm

/-- The mathematical problem: the objective, the equality constraints and the inequality
constraints (negated, because scipy wants `≥ 0`), with their gradients. -/
noncomputable def mathAnswer {n : Nat} (obj : Name) (es is : List Name)
    (F : Name → (Fin n → ℝ) → ℝ) (G : Name → (Fin n → ℝ) → Fin n → ℝ) (q : Query) (x : List ℝ) :
    Option (List ℝ) :=
  let y : Fin n → ℝ := fun j => x.getD j 0
  match q with
  | .fun_ => some [F obj y]
  | .jac => some (List.ofFn (G obj y))
  | .con i => (es[i]?.map fun t => [F t y]).or
      (if es.length ≤ i then is[i - es.length]?.map fun t => [- F t y] else none)
  | .conJac i => (es[i]?.map fun t => List.ofFn (G t y)).or
      (if es.length ≤ i then is[i - es.length]?.map fun t => List.ofFn (fun j => - G t y j) else none)

/-- **C115**, for at most one constraint of each kind. The functions `F` of the nodes have
gradients `G`, and running the action on the plan is running scipy's algorithm on the problem of
minimising `F obj` subject to `F t = 0` and `F t ≤ 0` with those gradients: the plan ends with the
vector the algorithm ends with, and the action raises if the algorithm does. For several
constraints of a kind this fails, see `C12_full_false`. -/
theorem optimizer_solves_plan_partial {Mon : Type} (N : Net Name) (f : Name → List E → E)
    (hg : HGrad Name E (E →L[ℝ] ℝ)) (vs : Vars Name (Arr ℝ)) (hp : GoodPlan N f hg vs)
    (ord : Vars Name (Arr ℝ) → List Name → List Name) (hord : ∀ vs l, (ord vs l).Perm l)
    (rep : ArrayRep E) (kn : E →L[ℝ] ℝ) (obj : Name) (es is : List Name)
    (h1 : es.length ≤ 1) (h2 : is.length ≤ 1)
    (F : Name → (Fin (flat vs).length → ℝ) → ℝ) (hF : ∀ t, IsNodeFun N f rep vs t (F t))
    (mon : Vars Name (Arr ℝ) → Option Mon) (maxIters : Option Nat)
    (scipy : List ℝ → List (ℝ × ℝ) → List (String × Nat) → Client ℝ)
    (hc : Sized (flat vs).length (scipy (flat vs) (flatBounds vs) (passedOptions maxIters)))
    (start : Nat) :
    ∃ G, (∀ t ∈ obj :: (es ++ is), IsGradient (F t) (G t)) ∧ ∃ n₀, ∀ fuel, n₀ ≤ fuel →
      match (scipy (flat vs) (flatBounds vs) (passedOptions maxIters)).result
        (mathAnswer obj es is F G) (fun _ x => (mon (assign vs x)).isSome) start with
      | some x => effect ((planOptimizer N f hg ord fuel rep kn obj es is mon maxIters scipy).prog
          start) vs = (assign vs x, true) ∧ flat (assign vs x) = x
      | none => (effect ((planOptimizer N f hg ord fuel rep kn obj es is mon maxIters scipy).prog
          start) vs).2 = false := by
  classical
  -- the gradients do not depend on the fuel, since derivatives are unique
  obtain ⟨n₀, hn₀⟩ := createGraph_all hp.acyclic (obj :: (es ++ is))
  have hex : ∀ fuel t, ∃ G, n₀ ≤ fuel → t ∈ obj :: (es ++ is) → IsGradient (F t) G ∧ ∀ x,
      planVal N f ord fuel rep t (assign vs (List.ofFn x)) = some [F t x] ∧
      planGrad N f hg ord fuel rep kn t (thawedNames vs) (assign vs (List.ofFn x)) =
        some (List.ofFn (G x)) := by
    intro fuel t
    by_cases h : n₀ ≤ fuel ∧ t ∈ obj :: (es ++ is)
    · obtain ⟨g, hgr⟩ := hn₀ fuel h.1 t h.2
      obtain ⟨G, hG⟩ := plan_eval_correct N f hg vs hp ord hord rep kn t (F t) (hF t) hgr
      exact ⟨G, fun _ _ => hG⟩
    · exact ⟨fun _ _ => 0, fun a b => absurd ⟨a, b⟩ h⟩
  choose G hG using hex
  have huniq : ∀ fuel, n₀ ≤ fuel → ∀ t ∈ obj :: (es ++ is), G fuel t = G n₀ t := by
    intro fuel hf t ht
    funext x j
    have a := (hG fuel t hf ht).1 x
    have b := (hG n₀ t le_rfl ht).1 x
    have := congrArg (fun L : (Fin (flat vs).length → ℝ) →L[ℝ] ℝ => L (Pi.single j 1)) (a.unique b)
    simpa [_root_.sum_apply, Pi.single_apply] using this
  refine ⟨G n₀, fun t ht => (hG n₀ t le_rfl ht).1, n₀, fun fuel hfuel => ?_⟩
  have hval : ∀ t ∈ obj :: (es ++ is), ∀ x : List ℝ, x.length = (flat vs).length →
      planVal N f ord fuel rep t (assign vs x) = some [F t fun j => x.getD j 0] ∧
      planGrad N f hg ord fuel rep kn t (thawedNames vs) (assign vs x) =
        some (List.ofFn (G n₀ t fun j => x.getD j 0)) := by
    intro t ht x hx
    have h := (hG fuel t hfuel ht).2 (fun j => x.getD j 0)
    rw [huniq fuel hfuel t ht] at h
    have hx' : List.ofFn (fun j : Fin (flat vs).length => x.getD j 0) = x := by
      apply List.ext_getElem
      · simp [hx]
      · intro i a b
        rw [List.getElem_ofFn, List.getD_eq_getElem _ _ b]
    rw [hx'] at h
    exact h
  have href := optimizer_refines_math (planOptimizer N f hg ord fuel rep kn obj es is mon maxIters scipy)
    rfl start vs hp.nodup hp.shaped hp.thawed hc
  have hans : ∀ q x, x.length = (flat vs).length →
      (planOptimizer N f hg ord fuel rep kn obj es is mon maxIters scipy).answer (thawedNames vs) q
        (assign vs x) = mathAnswer obj es is F (G n₀) q x := by
    intro q x hx
    have hcon : ∀ i, ((buildConstraints es is).2[i]?.bind
        (Closure.target (buildConstraints es is).1)) = (intended es is)[i]? :=
      fun i => constraint_callbacks_correct_partial es is h1 h2 i
    cases q with
    | fun_ => exact (hval obj (by simp) x hx).1
    | jac => exact (hval obj (by simp) x hx).2
    | con i =>
      unfold Optimizer.answer
      show (match (buildConstraints es is).2[i]?.bind (Closure.target (buildConstraints es is).1) with
        | none => none
        | some (t, b) => (planVal N f ord fuel rep t (assign vs x)).map (negIf b)) = _
      rw [hcon i]
      unfold mathAnswer intended
      rw [List.getElem?_append]
      simp only [List.length_map, List.getElem?_map]
      by_cases hi : i < es.length
      · have hm : es[i] ∈ obj :: (es ++ is) := by simp
        simp only [hi, if_true, List.getElem?_eq_getElem hi, Option.map_some, Option.some_or,
          (hval _ hm x hx).1]
        rfl
      · simp only [hi, if_false, show es.length ≤ i by omega, if_true,
          List.getElem?_eq_none (show es.length ≤ i by omega), Option.map_none, Option.none_or]
        by_cases hj : i - es.length < is.length
        · have hm : is[i - es.length] ∈ obj :: (es ++ is) := by simp
          simp only [List.getElem?_eq_getElem hj, Option.map_some, (hval _ hm x hx).1]
          rfl
        · simp [List.getElem?_eq_none (show is.length ≤ i - es.length by omega)]
    | conJac i =>
      unfold Optimizer.answer
      show (match (buildConstraints es is).2[i]?.bind (Closure.target (buildConstraints es is).1) with
        | none => none
        | some (t, b) => (planGrad N f hg ord fuel rep kn t (thawedNames vs) (assign vs x)).map (negIf b)) = _
      rw [hcon i]
      unfold mathAnswer intended
      rw [List.getElem?_append]
      simp only [List.length_map, List.getElem?_map]
      by_cases hi : i < es.length
      · have hm : es[i] ∈ obj :: (es ++ is) := by simp
        simp only [hi, if_true, List.getElem?_eq_getElem hi, Option.map_some, Option.some_or,
          (hval _ hm x hx).2]
        rfl
      · simp only [hi, if_false, show es.length ≤ i by omega, if_true,
          List.getElem?_eq_none (show es.length ≤ i by omega), Option.map_none, Option.none_or]
        by_cases hj : i - es.length < is.length
        · have hm : is[i - es.length] ∈ obj :: (es ++ is) := by simp
          simp only [List.getElem?_eq_getElem hj, Option.map_some, (hval _ hm x hx).2]
          simp [negIf, List.map_ofFn, Function.comp_def]
        · simp [List.getElem?_eq_none (show is.length ≤ i - es.length by omega)]
  rw [← result_congr (flat vs).length _ _ _ hans _ hc start]
  split
  · rename_i x hx
    have e : Client.result (fun q x => (planOptimizer N f hg ord fuel rep kn obj es is mon maxIters
        scipy).answer (thawedNames vs) q (assign vs x)) (fun _ x => ((planOptimizer N f hg ord fuel rep
        kn obj es is mon maxIters scipy).mon (assign vs x)).isSome) ((planOptimizer N f hg ord fuel
        rep kn obj es is mon maxIters scipy).scipy (flat vs) (flatBounds vs) (passedOptions
        (planOptimizer N f hg ord fuel rep kn obj es is mon maxIters scipy).maxIters)) start =
        some x := hx
    rw [e] at href
    exact href
  · rename_i hx
    have e : Client.result (fun q x => (planOptimizer N f hg ord fuel rep kn obj es is mon maxIters
        scipy).answer (thawedNames vs) q (assign vs x)) (fun _ x => ((planOptimizer N f hg ord fuel rep
        kn obj es is mon maxIters scipy).mon (assign vs x)).isSome) ((planOptimizer N f hg ord fuel
        rep kn obj es is mon maxIters scipy).scipy (flat vs) (flatBounds vs) (passedOptions
        (planOptimizer N f hg ord fuel rep kn obj es is mon maxIters scipy).maxIters)) start =
        none := hx
    rw [e] at href
    exact href

/-- Two equality constraints: asked for the first one, the action answers with the second. -/
theorem plan_two_constraints_false {Mon : Type} (N : Net Name) (f : Name → List E → E)
    (hg : HGrad Name E (E →L[ℝ] ℝ)) (vs : Vars Name (Arr ℝ)) (hp : GoodPlan N f hg vs)
    (ord : Vars Name (Arr ℝ) → List Name → List Name) (hord : ∀ vs l, (ord vs l).Perm l)
    (rep : ArrayRep E) (kn : E →L[ℝ] ℝ) (obj a b : Name)
    (F : Name → (Fin (flat vs).length → ℝ) → ℝ) (hF : ∀ t, IsNodeFun N f rep vs t (F t))
    (mon : Vars Name (Arr ℝ) → Option Mon) (maxIters : Option Nat)
    (scipy : List ℝ → List (ℝ × ℝ) → List (String × Nat) → Client ℝ) :
    ∃ n₀, ∀ fuel, n₀ ≤ fuel → ∀ x,
      (planOptimizer N f hg ord fuel rep kn obj [a, b] [] mon maxIters scipy).answer (thawedNames vs)
        (.con 0) (assign vs (List.ofFn x)) = some [F b x] := by
  obtain ⟨n₀, h₀⟩ := Exec.createGraph_terminates hp.acyclic [b]
  refine ⟨n₀, fun fuel hf x => ?_⟩
  obtain ⟨g, hgr⟩ := h₀ fuel hf
  obtain ⟨G, -, hG⟩ := plan_eval_correct N f hg vs hp ord hord rep kn b (F b) (hF b) hgr
  show (planVal N f ord fuel rep b (assign vs (List.ofFn x))).map (negIf false) = _
  rw [(hG x).1]
  rfl

/-! ### A sample: the squared norm of a variable plus a frozen variable -/

/-- Nodes 0 and 1 are variables with two entries, node 2 is their sum, node 3 the sum of squares
of its entries. -/
def sqNet : Net Nat := ⟨fun v => if v = 2 then [0, 1] else if v = 3 then [2] else [], fun _ => false⟩

/-- The functions of the nodes. -/
def sqFun (v : Nat) (xs : List (Fin 2 → ℝ)) : Fin 2 → ℝ :=
  if v = 3 then fun _ => (xs.headD 0 0) ^ 2 + (xs.headD 0 1) ^ 2 else xs.sum

/-- The derivative of the sum of squares. -/
noncomputable def sqDeriv (a : Fin 2 → ℝ) : (Fin 2 → ℝ) →L[ℝ] (Fin 2 → ℝ) :=
  ContinuousLinearMap.pi fun _ => (2 * a 0) • ContinuousLinearMap.proj 0 + (2 * a 1) • ContinuousLinearMap.proj 1

/-- The reported gradients. -/
noncomputable def sqGrad : HGrad Nat (Fin 2 → ℝ) ((Fin 2 → ℝ) →L[ℝ] ℝ) := fun v =>
  if v = 3 then Exec.freshGrad fun as g => [g.comp (sqDeriv (as.headD 0))]
  else Exec.sumGrad fun _ => 0

/-- Variable 0 is not frozen, variable 1 is. -/
def sqVars : Vars Nat (Arr ℝ) :=
  [(0, ⟨⟨[2], [1, 2]⟩, false, (⟨[2], [0, 0]⟩, ⟨[2], [9, 9]⟩)⟩),
   (1, ⟨⟨[2], [5, 6]⟩, true, (⟨[2], [0, 0]⟩, ⟨[2], [9, 9]⟩)⟩)]

/-- Arrays with up to two entries. -/
noncomputable def sqRep : ArrayRep (Fin 2 → ℝ) :=
  ⟨fun i j => if i = j.val then 1 else 0, ContinuousLinearMap.proj 0⟩

theorem sq_localGrad : IsLocalGrad 1 (sqFun 3) fun as g => [g.comp (sqDeriv (as.headD 0))] := by
  intro xs
  refine ⟨fun i => sqDeriv (xs i), ?_, ?_⟩
  · have e : (fun ys : Fin 1 → Fin 2 → ℝ => sqFun 3 (List.ofFn ys)) =
        fun ys _ => (ys 0 0) ^ 2 + (ys 0 1) ^ 2 := by
      funext ys; simp [sqFun]
    rw [e, hasFDerivAt_pi']
    intro j
    have p : ∀ k : Fin 2, HasFDerivAt (fun ys : Fin 1 → Fin 2 → ℝ => ys 0 k)
        ((ContinuousLinearMap.proj k).comp (ContinuousLinearMap.proj (R := ℝ)
          (φ := fun _ : Fin 1 => Fin 2 → ℝ) 0)) xs := fun k =>
      ((ContinuousLinearMap.proj (R := ℝ) (φ := fun _ : Fin 2 => ℝ) k).comp
        (ContinuousLinearMap.proj (R := ℝ) (φ := fun _ : Fin 1 => Fin 2 → ℝ) 0)).hasFDerivAt
    refine (((p 0).pow 2).add ((p 1).pow 2)).congr_fderiv (ContinuousLinearMap.ext fun dy => ?_)
    change _ = (∑ i : Fin 1, (sqDeriv (xs i)).comp (ContinuousLinearMap.proj i)) dy j
    rw [Fin.sum_univ_one]
    simp [sqDeriv]
  · intro g
    simp [List.ofFn_succ]

theorem sq_goodPlan : GoodPlan sqNet sqFun sqGrad sqVars where
  acyclic := by
    refine ⟨fun v => v, fun v u hu => ?_⟩
    show u < v
    simp only [sqNet] at hu
    split at hu
    · simp at hu; omega
    · split at hu
      · simp at hu; omega
      · simp at hu
  nodup := by simp [sqVars]
  shaped := by
    intro e he
    simp only [sqVars, List.mem_cons, List.not_mem_nil, or_false] at he
    rcases he with rfl | rfl <;> rfl
  thawed := by simp [thawedNames, sqVars]
  leaf := by
    intro v hv
    simp only [sqVars, List.map_cons, List.map_nil, List.mem_cons, List.not_mem_nil, or_false] at hv
    rcases hv with rfl | rfl <;> simp [sqNet]
  light := by intro v h; cases h
  grad := by
    intro v _
    by_cases h3 : v = 3
    · subst h3
      refine ⟨fun as g => [g.comp (sqDeriv (as.headD 0))], sq_localGrad, ?_⟩
      have e : sqGrad 3 = Exec.freshGrad fun as g => [g.comp (sqDeriv (as.headD 0))] := by
        simp [sqGrad]
      rw [e]
      exact Exec.freshGrad_owned _ _
    · have hk : (sqNet.inputs v).length ≤ 2 := by
        simp only [sqNet, h3, if_false]; split <;> simp
      have e1 : sqGrad v = Exec.sumGrad fun _ => 0 := by simp [sqGrad, h3]
      have e2 : sqFun v = fun xs => xs.sum := by funext xs; simp [sqFun, h3]
      rw [e1, e2]
      refine ⟨fun as g => List.replicate as.length g, ?_,
        Exec.sumGrad_owned_of_le_two _ (fun _ => rfl) _ hk⟩
      generalize (sqNet.inputs v).length = k
      intro xs
      refine ⟨fun _ => ContinuousLinearMap.id ℝ _, ?_, ?_⟩
      · have e : (fun ys : Fin k → Fin 2 → ℝ => (List.ofFn ys).sum) = fun ys => ∑ i, ys i := by
          funext ys; simp [List.sum_ofFn]
        rw [e]
        have h := HasFDerivAt.fun_sum (u := Finset.univ) (x := xs)
          (A := fun (i : Fin k) (ys : Fin k → Fin 2 → ℝ) => ys i)
          (A' := fun i => ContinuousLinearMap.proj (R := ℝ) (φ := fun _ : Fin k => Fin 2 → ℝ) i)
          (fun i _ => (ContinuousLinearMap.proj (R := ℝ) (φ := fun _ : Fin k => Fin 2 → ℝ) i).hasFDerivAt)
        refine h.congr_fderiv ?_
        ext y
        simp
      · intro g
        apply List.ext_getElem
        · simp
        · intro i h1 h2
          simp

/-- The objective of the sample is `(x₀ + 5)² + (x₁ + 6)²`: the frozen variable keeps its value. -/
theorem sq_objective : (flat sqVars).length = 2 ∧
    IsNodeFun sqNet sqFun sqRep sqVars 3
      (fun x : Fin 2 → ℝ => (x 0 + 5) ^ 2 + (x 1 + 6) ^ 2) := by
  refine ⟨rfl, fun (x : Fin 2 → ℝ) => ?_⟩
  set ov := overrides sqRep (assign sqVars (List.ofFn x)) with hov
  have hx : List.ofFn x = [x 0, x 1] := by simp [List.ofFn_succ]
  have o0 : ov 0 = some x := by
    rw [hov, hx]
    show some (sqRep.encode ⟨_, [x 0, x 1]⟩) = _
    congr 1
    funext j
    fin_cases j <;> simp [ArrayRep.encode, sqRep]
  have o1 : ov 1 = some ![5, 6] := by
    rw [hov, hx]
    show some (sqRep.encode ⟨_, [5, 6]⟩) = _
    congr 1
    funext j
    fin_cases j <;> simp [ArrayRep.encode, sqRep]
  have o2 : ov 2 = none := by simp [hov, overrides, sqVars, assign, getVar]
  have o3 : ov 3 = none := by simp [hov, overrides, sqVars, assign, getVar]
  have h2 : Evals sqNet sqFun ov 2 (sqFun 2 [x, ![5, 6]]) := by
    refine Evals.node o2 rfl fun p hp => ?_
    have hp' : p ∈ [((0 : Nat), x), (1, ![5, 6])] := hp
    simp only [List.mem_cons, List.not_mem_nil, or_false] at hp'
    rcases hp' with rfl | rfl
    · exact Evals.override o0
    · exact Evals.override o1
  have h3 : Evals sqNet sqFun ov 3 (sqFun 3 [sqFun 2 [x, ![5, 6]]]) := by
    refine Evals.node o3 rfl fun p hp => ?_
    have hp' : p ∈ [((2 : Nat), sqFun 2 [x, ![5, 6]])] := hp
    simp only [List.mem_cons, List.not_mem_nil, or_false] at hp'
    rcases hp' with rfl
    exact h2
  refine ⟨_, h3, ?_⟩
  simp [sqFun, sqRep]
  rfl

/-- An optimizer that asks for value and gradient once and takes a step against the gradient. -/
example : Sized (flat sqVars).length ((fun x0 _ _ => .call .fun_ x0 fun _ => .call .jac x0 fun g =>
    .finish (if g.length = x0.length then List.zipWith (· - ·) x0 g else x0) :
      List ℝ → List (ℝ × ℝ) → List (String × Nat) → Client ℝ) (flat sqVars) (flatBounds sqVars)
      (passedOptions (some 3))) := by
  refine ⟨rfl, fun _ => ⟨rfl, fun g => ?_⟩⟩
  show (if _ then _ else _ : List ℝ).length = _
  split
  · rename_i h; simp [h]
  · rfl

end Verif.Plan
