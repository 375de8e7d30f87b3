import Verif.Exec.GoosGradProps
import Verif.Plan.ScipyProps
/-
The functions the scipy action of goos hands to the optimizer, composed from the graph executor
(`spins/goos/graph_executor.py`), the plan (`spins/goos/optplan/optplan.py` `eval_node`,
`eval_grad` 629-698) and the action (`spins/goos/optimize.py` `func` 126-130, `grad` 132-138).
-/
namespace Verif.Plan
variable {Name : Type} [DecidableEq Name]
variable {E : Type} [NormedAddCommGroup E] [NormedSpace ℝ E]

/-- How numpy arrays appear among the values of the nodes: `unit i` is the array whose `i`-th
entry (in flattened order) is one, all others zero, and `entry` reads the number in an array with
one entry. The gradient of a value is a linear form `g`; the `i`-th entry of
`flow.array_grad.flatten()` is `g (unit i)`. (One space stands for the arrays of all shapes.) -/
structure ArrayRep (E : Type) [NormedAddCommGroup E] [NormedSpace ℝ E] where
  unit : Nat → E
  entry : E →L[ℝ] ℝ

/-- `flows.NumericFlow(var_value)` (`optplan.py` 655, 696). -/
def ArrayRep.encode (rep : ArrayRep E) (a : Arr ℝ) : E :=
  ∑ i ∈ Finset.range a.data.length, a.data.getD i 0 • rep.unit i

/-- The values in `override_map` (`optplan.py` 644-656, 678-697): all variables of the plan, frozen
or not. (Flags are in the models of C07; the gradients in the map are never used for a node without
inputs, C05.) -/
def overrides (rep : ArrayRep E) (vs : Vars Name (Arr ℝ)) (w : Name) : Option E :=
  (getVar w vs).map fun s => rep.encode s.value

/-- Number of entries of a variable. -/
def entries (vs : Vars Name (Arr ℝ)) (n : Name) : Nat :=
  match getVar n vs with
  | none => 0
  | some s => s.value.data.length

/-- `plan.eval_node(node).array` (`optplan.py` 629-671) for a node with a scalar value. Nodes are
identified by their names, which are unique in a plan (C14). `ord` is the schedule, which may
differ from call to call. -/
def planVal (N : Exec.Net Name) (f : Name → List E → E) (ord : Vars Name (Arr ℝ) → List Name → List Name)
    (fuel : Nat) (rep : ArrayRep E) (node : Name) (vs : Vars Name (Arr ℝ)) : Option (List ℝ) :=
  match Exec.evalFun N f (ord vs) fuel (overrides rep vs) [node] with
  | .ok ([e], _) => some [rep.entry e]
  | _ => none

/-- `np.hstack([flow.array_grad.flatten() for flow in plan.eval_grad(node, variables)])`
(`optimize.py` 134-135, `optplan.py` 673-698). For constraints the reshaping (161-168, 194-201) gives
the same vector if the constraint is scalar. -/
def planGrad (N : Exec.Net Name) (f : Name → List E → E) (hg : Exec.HGrad Name E (E →L[ℝ] ℝ))
    (ord : Vars Name (Arr ℝ) → List Name → List Name) (fuel : Nat) (rep : ArrayRep E)
    (kn : E →L[ℝ] ℝ) (node : Name) (names : List Name) (vs : Vars Name (Arr ℝ)) :
    Option (List ℝ) :=
  match Exec.evalGradGoos N f hg (ord vs) fuel (overrides rep vs) rep.entry kn names node with
  | .error _ => none
  | .ok gs => some ((names.zip gs).flatMap fun e =>
      (List.range (entries vs e.1)).map fun i => e.2 (rep.unit i))

/-- `ScipyOptimizer(objective, method, cons_eq, cons_ineq, ...)` acting on a plan. -/
def planOptimizer {Mon : Type} (N : Exec.Net Name) (f : Name → List E → E)
    (hg : Exec.HGrad Name E (E →L[ℝ] ℝ)) (ord : Vars Name (Arr ℝ) → List Name → List Name)
    (fuel : Nat) (rep : ArrayRep E) (kn : E →L[ℝ] ℝ) (obj : Name) (es is : List Name)
    (mon : Vars Name (Arr ℝ) → Option Mon) (maxIters : Option Nat)
    (scipy : List ℝ → List (ℝ × ℝ) → List (String × Nat) → Client ℝ) : Optimizer Name ℝ Mon Name where
  obj := obj
  consEq := es
  consIneq := is
  val := planVal N f ord fuel rep
  grd := planGrad N f hg ord fuel rep kn
  iter := none
  iterVal := fun n => ⟨[], [(n : ℝ)]⟩
  mon := mon
  maxIters := maxIters
  scipy := scipy

end Verif.Plan
