import Verif.Plan.Spec
/-
Model of `spins/goos/optimize.py` `ScipyOptimizer.run` (79-253) as an action program, with
`scipy.optimize.minimize` as an arbitrary client of the callbacks it is given.
-/
namespace Verif.Plan
variable {Name R Mon F : Type} [DecidableEq Name]

/-- An array: shape and row-major data. -/
structure Arr (R : Type) where
  shape : List Nat
  data : List R

/-- `np.prod(shape)`. -/
def size : List Nat → Nat
  | [] => 1
  | n :: ns => n * size ns

/-- 84-91: a value without shape is treated as one of shape `[1]`. -/
def normShape (s : List Nat) : List Nat := if s = [] then [1] else s

/-- `unpack` (112-119); `none` if `np.reshape` raises because the slice is too short. -/
def unpack : List (List Nat) → List R → Option (List (Arr R))
  | [], _ => some []
  | s :: ss, x =>
    if (x.take (size s)).length = size s then
      match unpack ss (x.drop (size s)) with
      | none => none
      | some vs => some (⟨s, x.take (size s)⟩ :: vs)
    else none

/-- What scipy asks for: objective, its gradient, `i`-th constraint, its Jacobian. -/
inductive Query where
  | fun_ | jac | con (i : Nat) | conJac (i : Nat)

/-- An optimizer: it calls the functions it was given with vectors of its choice and looks at the
answers, calls the callback, and ends with a result or an exception. -/
inductive Client (R : Type) where
  | call (q : Query) (x : List R) (k : List R → Client R)
  | callback (x : List R) (k : Client R)
  | finish (x : List R)
  | raise

/-- The Python variables the constraint closures refer to: the loop variables `eq` (152) and
`ineq` (182). They are variables of `run`, not of one iteration. -/
structure Env (F : Type) where
  eq : Option F
  ineq : Option F

/-- A constraint closure reads one of the two variables when it is called (154-175 and 185-208). -/
inductive Closure where
  | eq | ineq

/-- `for eq in self._cons_eq` (152-180). -/
def loopEq : List F → Env F → List Closure → Env F × List Closure
  | [], env, cs => (env, cs)
  | e :: es, env, cs => loopEq es { env with eq := some e } (cs ++ [.eq])

/-- `for ineq in self._cons_ineq` (182-213). -/
def loopIneq : List F → Env F → List Closure → Env F × List Closure
  | [], env, cs => (env, cs)
  | e :: es, env, cs => loopIneq es { env with ineq := some e } (cs ++ [.ineq])

/-- Construction of the constraint list (149-213) for a method that accepts constraints. The same
code is in `spins/invdes/optimization/scipy_optimizer.py` (83-118). -/
def buildConstraints (es is : List F) : Env F × List Closure :=
  let (env, cs) := loopEq es ⟨none, none⟩ []
  loopIneq is env cs

/-- Which function a closure evaluates, and whether the result is negated. -/
def Closure.target (env : Env F) : Closure → Option (F × Bool)
  | .eq => env.eq.map (fun f => (f, false))
  | .ineq => env.ineq.map (fun f => (f, true))

/-- `-val` (191, 208). -/
def negIf [Neg R] (b : Bool) (l : List R) : List R := if b then l.map (fun r => -r) else l

/-- The optimizer action. `val f vs` and `grd f names vs` are `plan.eval_node` and the flattened
`plan.eval_grad` with the variables of the plan as overrides; `none` if the evaluation raises.
`scipy x0 bounds maxiter` is the optimizer with its initial vector, bounds and iteration limit. -/
structure Optimizer (Name R Mon F : Type) where
  obj : F
  consEq : List F
  consIneq : List F
  val : F → Vars Name (Arr R) → Option (List R)
  grd : F → List Name → Vars Name (Arr R) → Option (List R)
  iter : Option Name
  iterVal : Nat → Arr R
  mon : Vars Name (Arr R) → Option Mon
  maxIters : Option Nat
  scipy : List R → List (R × R) → List (String × Nat) → Client R

/-- `func`, `grad`, `cons_fun`, `cons_jac` (126-208) on the current variables. -/
def Optimizer.answer [Neg R] (o : Optimizer Name R Mon F) (names : List Name) (q : Query)
    (vs : Vars Name (Arr R)) : Option (List R) :=
  let (env, cs) := buildConstraints o.consEq o.consIneq
  match q with
  | .fun_ => o.val o.obj vs
  | .jac => o.grd o.obj names vs
  | .con i =>
    match cs[i]?.bind (Closure.target env) with
    | none => none
    | some (f, b) => (o.val f vs).map (negIf b)
  | .conJac i =>
    match cs[i]?.bind (Closure.target env) with
    | none => none
    | some (f, b) => (o.grd f names vs).map (negIf b)

/-- `for var, value in zip(variables, values): plan.set_var_value(var, value)` (121-124). -/
def setAll {Val Ev Mon : Type} : List (Name × Val) → Prog Name Val Ev Mon → Prog Name Val Ev Mon
  | [], k => k
  | (n, v) :: r, k => .setValue n v true (fun ok => if ok then setAll r k else .raise)

/-- `unpack_and_set` (121-124). -/
def unpackAndSet {Ev Mon : Type} (names : List Name) (shapes : List (List Nat)) (x : List R)
    (k : Prog Name (Arr R) Ev Mon) : Prog Name (Arr R) Ev Mon :=
  match unpack shapes x with
  | none => .raise
  | some vals => setAll (names.zip vals) k

/-- `if self._iter: plan.set_var_value(self._iter, iter_num)` (229-230). -/
def setIter {Ev Mon : Type} (it : Option Name) (v : Arr R)
    (k : Prog Name (Arr R) Ev Mon) : Prog Name (Arr R) Ev Mon :=
  match it with
  | none => k
  | some n => .setValue n v true (fun ok => if ok then k else .raise)

/-- Serving the optimizer: each call sets the variables first; `callback` (219-236) also counts the
iterations and logs; at the end the result is set (253). -/
def serve [Neg R] (o : Optimizer Name R Mon F) (names : List Name) (shapes : List (List Nat)) :
    Client R → Nat → Prog Name (Arr R) Nat Mon
  | .raise, _ => .raise
  | .finish x, _ => unpackAndSet names shapes x .done
  | .call q x k, it =>
    unpackAndSet names shapes x (.look (fun vs =>
      match o.answer names q vs with
      | none => .raise
      | some r => serve o names shapes (k r) it))
  | .callback x k, it =>
    unpackAndSet names shapes x (setIter o.iter (o.iterVal (it + 1))
      (.writeEvent (it + 1) o.mon (fun ok =>
        if ok then serve o names shapes k (it + 1) else .raise)))

/-- `self._options` (60-65): a dictionary whose only key is `"options"`. -/
def initOptions (maxIters : Option Nat) : List (String × List (String × Nat)) :=
  [("options", match maxIters with
    | none => []
    | some m => if m = 0 then [] else [("maxiter", m)])]

/-- 238-241: the entry `"maxiter"` is looked for in the outer dictionary. (If it were there,
subtracting from a dictionary would raise.) -/
def adjustOptions (opts : List (String × List (String × Nat))) (_start : Nat) :
    Option (List (String × List (String × Nat))) :=
  if (opts.map Prod.fst).contains "maxiter" then none else some opts

/-- `run` (79-253). `np.hstack` of an empty list raises. Infinite bounds are replaced by `None`
(96-99), which is not modelled. `resume` (255-256) is `run` with the iteration of the event. -/
def Optimizer.prog [Neg R] (o : Optimizer Name R Mon F) (start : Nat) :
    Prog Name (Arr R) Nat Mon :=
  .getThawed (fun names =>
    match names with
    | none => .raise
    | some names =>
      .look (fun vs =>
        let states := names.filterMap (fun n => getVar n vs)
        let shapes := states.map (fun s => normShape s.value.shape)
        let x0 := states.flatMap (fun s => s.value.data)
        let bounds := states.flatMap (fun s => s.bounds.1.data.zip s.bounds.2.data)
        match adjustOptions (initOptions o.maxIters) start with
        | none => .raise
        | some opts =>
          if names = [] then .raise
          else
            serve o names shapes (o.scipy x0 bounds
              ((opts.find? (fun e => e.1 = "options")).map Prod.snd |>.getD [])) start))

/-- The action object. -/
def Optimizer.action [Neg R] (o : Optimizer Name R Mon F) : Action Name (Arr R) Nat Mon :=
  ⟨o.prog 0, some (fun it => o.prog it)⟩

end Verif.Plan
