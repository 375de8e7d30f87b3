import Verif.Plan.ScipyLemmas
/-
Properties C11, C12, C51 and C52: the scipy optimizer action of goos.
-/
namespace Verif.Plan
variable {Name R Mon F : Type} [DecidableEq Name]

/-- The options scipy receives. -/
def passedOptions (maxIters : Option Nat) : List (String × Nat) :=
  match maxIters with
  | none => []
  | some m => if m = 0 then [] else [("maxiter", m)]

theorem prog_effect [Neg R] (o : Optimizer Name R Mon F) (start : Nat) (vs : Vars Name (Arr R))
    (hnd : (vs.map Prod.fst).Nodup) (hth : thawedNames vs ≠ []) :
    effect (o.prog start) vs =
      effect (serve o (thawedNames vs) (thawedShapes vs)
        (o.scipy (flat vs) (flatBounds vs) (passedOptions o.maxIters)) start) vs := by
  have h1 : ((thawedNames vs).filterMap (fun n => getVar n vs)).map
      (fun s => normShape s.value.shape) = thawedShapes vs := by
    rw [thawedNames_filterMap vs hnd, List.map_map]; rfl
  have h2 : ((thawedNames vs).filterMap (fun n => getVar n vs)).flatMap
      (fun s => s.value.data) = flat vs := by
    rw [thawedNames_filterMap vs hnd, List.flatMap_map]; rfl
  have h3 : ((thawedNames vs).filterMap (fun n => getVar n vs)).flatMap
      (fun s => s.bounds.1.data.zip s.bounds.2.data) = flatBounds vs := by
    rw [thawedNames_filterMap vs hnd, List.flatMap_map]; rfl
  rw [Optimizer.prog, effect]
  change effect (.look _) vs = _
  rw [effect]
  have hn : (vs.filter (fun e => !e.2.frozen)).map Prod.fst = thawedNames vs := rfl
  have ha : adjustOptions (initOptions o.maxIters) start = some (initOptions o.maxIters) := by
    unfold adjustOptions initOptions
    simp
  simp only [hn, h1, h2, h3, ha, hth, if_false]
  rfl

/-- C11. Let the plan have well-shaped variables, at least one of them not frozen. The optimizer
is started with the entries of exactly the variables that are not frozen, in order, and their
bounds; every function it calls at `x` is evaluated with these variables replaced by consecutive
pieces of `x` and all others unchanged; if it ends with `x`, the plan ends with `assign vs x`; if
it or a callback raises, the action raises. (`o.iter = none`: no iteration variable, see C51.) -/
theorem optimizer_refines_math [Neg R] (o : Optimizer Name R Mon F) (hiter : o.iter = none)
    (start : Nat) (vs : Vars Name (Arr R)) (hnd : (vs.map Prod.fst).Nodup) (hw : WellShaped vs)
    (hth : thawedNames vs ≠ [])
    (hc : Sized (flat vs).length
      (o.scipy (flat vs) (flatBounds vs) (passedOptions o.maxIters))) :
    match (o.scipy (flat vs) (flatBounds vs) (passedOptions o.maxIters)).result
        (fun q x => o.answer (thawedNames vs) q (assign vs x))
        (fun _ x => (o.mon (assign vs x)).isSome) start with
    | some x => effect (o.prog start) vs = (assign vs x, true) ∧ flat (assign vs x) = x
    | none => (effect (o.prog start) vs).2 = false := by
  rw [prog_effect o start vs hnd hth]
  have h := serve_effect o hiter vs hnd hw _ hc start vs (Or.inl rfl)
  generalize Client.result _ _ _ _ = res at h
  cases res with
  | none => exact h
  | some x => exact ⟨h.1, assign_flat vs x h.2⟩

/-- C11: whatever the optimizer does (wrong vector lengths, exceptions), with or without an
iteration variable: names, order, flags and bounds of all variables and the values of the frozen
ones are unchanged. -/
theorem optimizer_keeps_frozen [Neg R] (o : Optimizer Name R Mon F) (start : Nat)
    (vs : Vars Name (Arr R)) : Kept vs (effect (o.prog start) vs).1 := by
  rw [Optimizer.prog, effect]
  change Kept vs (effect (.look _) vs).1
  rw [effect]
  simp only
  split
  · exact Kept.refl vs
  · split
    · exact Kept.refl vs
    · exact serve_kept o _ _ _ _ _

/-- C11: writing back the vector that was read changes nothing but the shape of shapeless
values. -/
theorem pack_unpack (vs : Vars Name (Arr R))
    (hs : ∀ e ∈ vs, e.2.value.shape ≠ []) : assign vs (flat vs) = vs := by
  induction vs with
  | nil => rfl
  | cons e vs ih =>
    obtain ⟨n, s⟩ := e
    have ih := ih (fun e he => hs e (List.mem_cons_of_mem _ he))
    have h0 : normShape s.value.shape = s.value.shape := by
      rw [normShape, if_neg (hs (n, s) (by simp))]
    rw [assign, flat_cons]
    cases hf : s.frozen with
    | true => simp [ih]
    | false =>
      simp only [Bool.false_eq_true, if_false, List.take_left, List.drop_left, ih, h0]
      exact congrArg (fun t => (n, t) :: vs) (by cases s; cases hf; rfl)

/-- C11: reading back what was written gives the vector that was written. -/
theorem unpack_pack (vs : Vars Name (Arr R)) (x : List R) (hx : x.length = (flat vs).length) :
    flat (assign vs x) = x := assign_flat vs x hx

/-! ### C12: each constraint callback evaluates its own constraint -/

/-- What scipy should get: the equality constraints, then the inequality constraints negated. -/
def intended (es is : List F) : List (F × Bool) :=
  es.map (fun f => (f, false)) ++ is.map (fun f => (f, true))

/-- The function evaluated by the `i`-th constraint callback. -/
def evaluated (es is : List F) (i : Nat) : Option (F × Bool) :=
  (buildConstraints es is).2[i]?.bind (Closure.target (buildConstraints es is).1)

/-- What the callbacks do: every equality callback evaluates the last equality constraint, every
inequality callback the last inequality constraint. -/
theorem constraint_callbacks_evaluate_last (es is : List F) (i : Nat) :
    evaluated es is i =
      if i < es.length then es.getLast?.map (fun f => (f, false))
      else if i < es.length + is.length then is.getLast?.map (fun f => (f, true)) else none := by
  unfold evaluated
  rw [buildConstraints_spec]
  simp only [List.getElem?_append, List.length_replicate, List.getElem?_replicate]
  by_cases h : i < es.length
  · simp [h, Closure.target]
  · simp only [h, if_false]
    by_cases h2 : i < es.length + is.length
    · have : i - es.length < is.length := by omega
      simp [this, h2, Closure.target]
    · have : ¬ i - es.length < is.length := by omega
      simp [this, h2]

/-- C12 holds if there is at most one constraint of each kind. -/
theorem constraint_callbacks_correct_partial (es is : List F) (h1 : es.length ≤ 1)
    (h2 : is.length ≤ 1) (i : Nat) : evaluated es is i = (intended es is)[i]? := by
  rw [constraint_callbacks_evaluate_last]
  rcases es with _ | ⟨e, _ | ⟨e', es⟩⟩
  · rcases is with _ | ⟨j, _ | ⟨j', is⟩⟩
    · simp [intended]
    · rcases i with _ | i <;> simp [intended]
    · simp at h2
  · rcases is with _ | ⟨j, _ | ⟨j', is⟩⟩
    · rcases i with _ | i <;> simp [intended]
    · rcases i with _ | _ | i <;> simp [intended]
    · simp at h2
  · simp at h1

omit [DecidableEq Name] in
/-- C12 in terms of what the optimizer sees: with at most one constraint of each kind, the answers
to constraint queries are the values (gradients) of the intended constraint. -/
theorem constraint_answers_correct_partial [Neg R] (o : Optimizer Name R Mon F)
    (h1 : o.consEq.length ≤ 1) (h2 : o.consIneq.length ≤ 1) (names : List Name) (i : Nat)
    (f : F) (b : Bool) (hi : (intended o.consEq o.consIneq)[i]? = some (f, b))
    (vs : Vars Name (Arr R)) :
    o.answer names (.con i) vs = (o.val f vs).map (negIf b) ∧
    o.answer names (.conJac i) vs = (o.grd f names vs).map (negIf b) := by
  have h := constraint_callbacks_correct_partial o.consEq o.consIneq h1 h2 i
  rw [hi] at h
  unfold evaluated at h
  unfold Optimizer.answer
  simp only [h, and_self]

/-- The full statement of C12. -/
def C12_full : Prop :=
  ∀ (es is : List Nat) (i : Nat), evaluated es is i = (intended es is)[i]?

/-- With two equality constraints, the first callback evaluates the second constraint. -/
theorem C12_full_false : ¬ C12_full := by
  intro h
  have := h [10, 20] [] 0
  revert this
  decide

/-- How bad it is: with at least two different equality constraints some constraint is never
evaluated. -/
theorem constraint_never_evaluated (es is : List F) (e : F) (_he : e ∈ es)
    (hlast : es.getLast? ≠ some e) (i : Nat) : evaluated es is i ≠ some (e, false) := by
  rw [constraint_callbacks_evaluate_last]
  split
  · intro h
    cases hl : es.getLast? with
    | none => rw [hl] at h; cases h
    | some x =>
      rw [hl] at h hlast
      simp only [Option.map_some, Option.some.injEq, Prod.mk.injEq, and_true] at h
      exact hlast (by rw [h])
  · split
    · intro h
      cases hl : is.getLast? with
      | none => rw [hl] at h; cases h
      | some x => rw [hl] at h; simp at h
    · simp

/-! ### C51: the iteration variable -/

/-- If the iteration variable is frozen (for example a parameter) or not in the plan, the first
callback raises: the optimization cannot get past its first iteration. -/
theorem frozen_iteration_variable_raises [Neg R] (o : Optimizer Name R Mon F) (n : Name)
    (hiter : o.iter = some n) (vs : Vars Name (Arr R)) (hnd : (vs.map Prod.fst).Nodup)
    (hw : WellShaped vs) (hth : thawedNames vs ≠ []) (start : Nat)
    (hn : ∀ s, getVar n vs = some s → s.frozen = true)
    (x : List R) (k : Client R) (hx : x.length = (flat vs).length)
    (hc : o.scipy (flat vs) (flatBounds vs) (passedOptions o.maxIters) = .callback x k) :
    (effect (o.prog start) vs).2 = false := by
  rw [prog_effect o start vs hnd hth, hc, serve, unpackAndSet_effect vs hnd hw x hx, hiter, setIter,
    effect]
  have key : ∀ (vs : Vars Name (Arr R)) (x : List R), (∀ s, getVar n vs = some s → s.frozen = true) →
      ∀ s, getVar n (assign vs x) = some s → s.frozen = true := by
    intro vs
    induction vs with
    | nil => intro x _ s hs; cases hs
    | cons e vs ih =>
      obtain ⟨m, t⟩ := e
      intro x h s hs
      rw [assign] at hs
      by_cases hm : m = n
      · have ht := h t (by simp [getVar, hm])
        simp only [ht, if_true, getVar, hm] at hs
        cases hs
        exact ht
      · have h' : ∀ s, getVar n vs = some s → s.frozen = true := by
          intro s hs
          exact h s (by simpa [getVar, hm] using hs)
        split at hs
        · simp only [getVar, hm, if_false] at hs
          exact ih _ h' s hs
        · simp only [getVar, hm, if_false] at hs
          exact ih _ h' s hs
  have h2 : (change n (fun s => if (true && s.frozen) = true then none else
      some { s with value := o.iterVal (start + 1) }) (assign vs x)).2 = false := by
    unfold change
    cases hg : getVar n (assign vs x) with
    | none => rfl
    | some s => simp [key vs x hn s hg]
  rw [h2]
  rfl

/-! ### C52: iteration limit when resuming -/

/-- Resuming at iteration `start` passes scipy the full iteration limit again, not the remaining
number of iterations (the code looks for the limit in the wrong dictionary). -/
theorem resume_does_not_reduce_maxiter [Neg R] (o : Optimizer Name R Mon F) (m start : Nat)
    (hm : o.maxIters = some m) (hpos : m ≠ 0) (vs : Vars Name (Arr R))
    (hnd : (vs.map Prod.fst).Nodup) (hth : thawedNames vs ≠ []) :
    effect (o.prog start) vs =
      effect (serve o (thawedNames vs) (thawedShapes vs)
        (o.scipy (flat vs) (flatBounds vs) [("maxiter", m)]) start) vs := by
  rw [prog_effect o start vs hnd hth, hm, passedOptions, if_neg hpos]

/-! ### Sample -/

/-- A plan with a frozen variable between two others. -/
def sampleVars : Vars Nat (Arr Int) :=
  [(0, ⟨⟨[2], [1, 2]⟩, false, (⟨[2], [0, 0]⟩, ⟨[2], [9, 9]⟩)⟩),
   (1, ⟨⟨[1], [5]⟩, true, (⟨[1], [0]⟩, ⟨[1], [9]⟩)⟩),
   (2, ⟨⟨[1], [3]⟩, false, (⟨[1], [0]⟩, ⟨[1], [9]⟩)⟩)]

/-- An optimizer that evaluates the objective once, reports one iteration, and ends with the
objective added to all entries. -/
def sampleOptimizer : Optimizer Nat Int Unit Unit :=
  { obj := (), consEq := [], consIneq := [], iter := none, iterVal := fun n => ⟨[], [n]⟩,
    val := fun _ vs => some [(vs.flatMap (fun e => e.2.value.data)).sum],
    grd := fun _ _ _ => none, mon := fun _ => some (), maxIters := some 3,
    scipy := fun x0 _ _ => .call .fun_ x0 (fun r => .callback (x0.map (· + 1))
      (.finish (x0.map (· + (if r = [11] then 10 else 0))))) }

/-- It meets the hypotheses of `optimizer_refines_math` and computes what it should. -/
example : thawedNames sampleVars = [0, 2] ∧ flat sampleVars = [1, 2, 3] ∧
    (sampleVars.map Prod.fst).Nodup ∧ WellShaped sampleVars ∧
    Sized (flat sampleVars).length (sampleOptimizer.scipy (flat sampleVars)
      (flatBounds sampleVars) (passedOptions sampleOptimizer.maxIters)) ∧
    effect (sampleOptimizer.prog 0) sampleVars = (assign sampleVars [11, 12, 13], true) := by
  refine ⟨rfl, rfl, by decide, ?_, ?_, rfl⟩
  · intro e he
    simp only [sampleVars, List.mem_cons, List.not_mem_nil, or_false] at he
    rcases he with rfl | rfl | rfl <;> rfl
  · exact ⟨rfl, fun r => ⟨rfl, rfl⟩⟩

/-- The hypotheses of `constraint_callbacks_correct_partial` and `constraint_never_evaluated`. -/
example : evaluated [10] [20] 0 = some (10, false) ∧ evaluated [10] [20] 1 = some (20, true) ∧
    ([10, 20] : List Nat).getLast? ≠ some 10 := by decide

end Verif.Plan
