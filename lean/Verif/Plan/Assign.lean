import Verif.Plan.Model
import Verif.Exec.Model
/-
Model of a goos plan whose actions set, freeze and thaw variables, and of reading nodes: `Variable.set`, `freeze`, `thaw` and their actions
(spins/goos/math.py 129-190), `add_node`, `add_action`, `run`, `eval_nodes`, `eval_node` (spins/goos/optplan/optplan.py 472-508, 551-572,
629-671) and `ProblemGraphNode.get` (204-207), composed with the graph executor of C01.

Simplifications: nodes are identified by their names, which are unique (C14); checkpoint files are not written (C09: they do not change the
plan); flags are left out (C07); bounds are left out (setting a variable does not look at them).
-/
namespace Verif.Plan.Assign
open Verif.Exec (Net evalFun)

variable {V α : Type} [DecidableEq V]

/-- What the user has built: the graph, the values nodes compute, and for each variable its initial value and whether it is a parameter
(math.py 96-124); `none` for other nodes. -/
structure World (V α : Type) where
  net : Net V
  f : V → List α → α
  var : V → Option (α × Bool)

/-- The actions (math.py 143-190): `SetVariable` with a node or with a number, `FreezeVariable`, `ThawVariable`. -/
inductive Act (V α : Type) where
  | set (x : V) (value : V)
  | setTo (x : V) (value : α)
  | freeze (x : V)
  | thaw (x : V)

/-- `_goos_inputs` of an action: the variable only (math.py 147, 170, 181). -/
def Act.target : Act V α → V
  | .set x _ => x
  | .setTo x _ => x
  | .freeze x => x
  | .thaw x => x

/-- The plan: keys of `_node_map`, variables with value and frozen flag, actions, `_action_ptr`, `_modifiable`. -/
structure State (V α : Type) where
  known : List V
  vars : List (V × (α × Bool))
  actions : List (Act V α)
  ptr : Nat
  modifiable : Bool

/-- A new plan. optplan.py 240-283 -/
def State.new : State V α := ⟨[], [], [], 0, false⟩

/-- Dictionary read. -/
def lookup (x : V) : List (V × (α × Bool)) → Option (α × Bool)
  | [] => none
  | (y, s) :: r => if y = x then some s else lookup x r

/-- Dictionary write. -/
def store (x : V) (s : α × Bool) : List (V × (α × Bool)) → List (V × (α × Bool))
  | [] => [(x, s)]
  | (y, t) :: r => if y = x then (x, s) :: r else (y, t) :: store x s r

mutual
/-- `add_node` (482-508). `fuel` bounds the depth of the recursion. -/
def addNode (W : World V α) : Nat → V → State V α → State V α
  | 0, _, s => s
  | n + 1, v, s =>
    if v ∈ s.known then s
    else
      let s := { s with known := s.known ++ [v] }
      let s := match W.var v with
        | some i => { s with vars := store v i s.vars }
        | none => s
      addNodes W n (W.net.inputs v) s
/-- The loops over nodes (475-476, 507-508, 640-641). -/
def addNodes (W : World V α) : Nat → List V → State V α → State V α
  | _, [], s => s
  | n, v :: vs, s => addNodes W n vs (addNode W n v s)
end

/-- `eval_nodes` (629-658): the plan afterwards, and the values if nothing is raised. -/
def evalNodes (W : World V α) (ord : List V → List V) (fuel : Nat) (nodes : List V) (s : State V α) : State V α × Option (List α) :=
  let s := addNodes W fuel nodes s
  match evalFun W.net W.f ord fuel (fun v => (lookup v s.vars).map Prod.fst) nodes with
  | .ok r => (s, some r.1)
  | .error _ => (s, none)

/-- `set_var_value` (513-522); `none` if it raises. -/
def setValue (x : V) (a : α) (check : Bool) (s : State V α) : Option (State V α) :=
  if s.modifiable then
    match lookup x s.vars with
    | none => none
    | some t => if check && t.2 then none else some { s with vars := store x (a, t.2) s.vars }
  else none

/-- `freeze_var`, `thaw_var` (535-541). -/
def setFrozen (x : V) (b : Bool) (s : State V α) : Option (State V α) :=
  if s.modifiable then
    match lookup x s.vars with
    | none => none
    | some t => some { s with vars := store x (t.1, b) s.vars }
  else none

/-- `not self._var._is_param` (math.py 163). -/
def notParam (W : World V α) (x : V) : Bool :=
  match W.var x with
  | some i => !i.2
  | none => true

/-- `run` of the actions (math.py 157-163, 173-174, 184-185): the plan, and whether it returned. -/
def runAct (W : World V α) (ord : List V → List V) (fuel : Nat) (a : Act V α) (s : State V α) : State V α × Bool :=
  match a with
  | .set x e =>
    match evalNodes W ord fuel [e] s with
    | (s, some [v]) =>
      match setValue x v (notParam W x) s with
      | some s => (s, true)
      | none => (s, false)
    | (s, _) => (s, false)
  | .setTo x v =>
    match setValue x v (notParam W x) s with
    | some s => (s, true)
    | none => (s, false)
  | .freeze x =>
    match setFrozen x true s with
    | some s => (s, true)
    | none => (s, false)
  | .thaw x =>
    match setFrozen x false s with
    | some s => (s, true)
    | none => (s, false)

/-- The loop of `run` (560-571) over the actions from the pointer on. -/
def runLoop (W : World V α) (ord : List V → List V) (fuel : Nat) : List (Act V α) → State V α → State V α × Bool
  | [], s => (s, true)
  | a :: as, s =>
    match runAct W ord fuel a s with
    | (s, false) => (s, false)
    | (s, true) => runLoop W ord fuel as { s with ptr := s.ptr + 1 }

/-- `run` (551-572). An exception leaves `_modifiable` set. -/
def run (W : World V α) (ord : List V → List V) (fuel : Nat) (s : State V α) : State V α × Bool :=
  match runLoop W ord fuel (s.actions.drop s.ptr) { s with modifiable := true } with
  | (s, false) => (s, false)
  | (s, true) => ({ s with modifiable := false }, true)

/-- `add_action` (472-479). -/
def addAction (W : World V α) (ord : List V → List V) (fuel : Nat) (autorun : Bool) (a : Act V α) (s : State V α) : State V α × Bool :=
  let s := addNode W fuel a.target { s with actions := s.actions ++ [a] }
  if autorun then run W ord fuel s else (s, true)

/-- What a user does with a plan. -/
inductive Op (V α : Type) where
  | act (a : Act V α)
  | node (v : V)
  | run
  | read (nodes : List V)

/-- What a call gives. -/
inductive Out (α : Type) where
  | ok
  | raised
  | values (l : List α)
  deriving DecidableEq

/-- `thaw` of a parameter raises at once (math.py 137-139). -/
def refused (W : World V α) : Act V α → Bool
  | .thaw x => !notParam W x
  | _ => false

/-- One call: `var.set(...)`, `var.freeze()`, `var.thaw()`; creating a node in the plan (optplan.py 137-139); `plan.run()`;
`plan.eval_nodes(nodes)`, which for one node is `node.get()`. -/
def step (W : World V α) (ord : List V → List V) (fuel : Nat) (autorun : Bool) : Op V α → State V α → State V α × Out α
  | .act a, s => if refused W a then (s, .raised)
    else match addAction W ord fuel autorun a s with
      | (s, true) => (s, .ok)
      | (s, false) => (s, .raised)
  | .node v, s => (addNode W fuel v s, .ok)
  | .run, s => match run W ord fuel s with
    | (s, true) => (s, .ok)
    | (s, false) => (s, .raised)
  | .read nodes, s => match evalNodes W ord fuel nodes s with
    | (s, some l) => (s, .values l)
    | (s, none) => (s, .raised)

/-- A session: the results of the calls in order; the user catches exceptions. -/
def session (W : World V α) (ord : List V → List V) (fuel : Nat) (autorun : Bool) : List (Op V α) → State V α → List (Out α)
  | [], _ => []
  | o :: os, s => (step W ord fuel autorun o s).2 :: session W ord fuel autorun os (step W ord fuel autorun o s).1

end Verif.Plan.Assign
