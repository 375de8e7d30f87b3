/-
Model of the context stacks: `spins/goos/optplan/context.py`, `spins/goos/schema_registry.py` and
`spins/invdes/problem_graph/optplan/context.py`. Contexts are mutable objects that may be pushed
several times and changed while they are on a stack, so they live in a heap and stacks hold
references.
-/
namespace Verif.Schema

/-- A Python dictionary. -/
abbrev Dict (K V : Type) := List (K × V)

namespace Dict
variable {K V : Type} [DecidableEq K]

/-- `d[k]` or missing. -/
def get (d : Dict K V) (k : K) : Option V :=
  match d with
  | [] => none
  | (k', v) :: d => if k' = k then some v else get d k

/-- `d[k] = v`: replaces in place, or appends. -/
def set (d : Dict K V) (k : K) (v : V) : Dict K V :=
  match d with
  | [] => [(k, v)]
  | (k', v') :: d => if k' = k then (k', v) :: d else (k', v') :: set d k v

/-- `d.update(e)`. -/
def update (d e : Dict K V) : Dict K V := e.foldl (fun d kv => set d kv.1 kv.2) d

end Dict

variable {K V : Type} [DecidableEq K]

/-! ### goos -/

/-- The contexts that exist and the stack, whose last element is the top. -/
structure Stack (K V : Type) where
  heap : List (Dict K V)
  stack : List Nat

/-- `ContextStack.__init__` (37-38), `SchemaRegistryStack.__init__` (schema_registry.py 42-43). -/
def Stack.init : Stack K V := { heap := [[]], stack := [0] }

/-- `Context.register_node` (21-25), `SchemaRegistry.register` (22-30); `none` if it raises. -/
def regCtx (d : Dict K V) (k : K) (v : V) : Option (Dict K V) :=
  match d.get k with
  | some _ => none
  | none => some (d.set k v)

/-- What a user can do. `register` goes through the stack, `registerIn` directly to a context
object. -/
inductive CtxOp (K V : Type) where
  | create
  | push (c : Option Nat)
  | pop
  | register (k : K) (v : V)
  | registerIn (c : Nat) (k : K) (v : V)

/-- Registering in context `c`; the flag tells whether an exception is raised. -/
def Stack.registerIn (s : Stack K V) (c : Nat) (k : K) (v : V) : Stack K V × Bool :=
  match s.heap[c]? with
  | none => (s, true)
  | some d =>
    match regCtx d k v with
    | none => (s, true)
    | some d' => ({ s with heap := s.heap.set c d' }, false)

/-- `ContextStack.push/pop/register_node` (40-49). `pop` and `register_node` raise `IndexError` on
an empty stack. Pushing an object that does not exist is impossible and modelled as an error. -/
def Stack.step (s : Stack K V) : CtxOp K V → Stack K V × Bool
  | .create => ({ s with heap := s.heap ++ [[]] }, false)
  | .push none => ({ heap := s.heap ++ [[]], stack := s.stack ++ [s.heap.length] }, false)
  | .push (some c) =>
    if c < s.heap.length then ({ s with stack := s.stack ++ [c] }, false) else (s, true)
  | .pop => if s.stack = [] then (s, true) else ({ s with stack := s.stack.dropLast }, false)
  | .register k v =>
    match s.stack.getLast? with
    | none => (s, true)
    | some c => s.registerIn c k v
  | .registerIn c k v => s.registerIn c k v

/-- `SchemaRegistryStack` (schema_registry.py 41-67) differs in `push` (45-48), which appends the
undefined name `context` and so raises `NameError` after a new registry may have been created. -/
def Stack.stepRegistry (s : Stack K V) : CtxOp K V → Stack K V × Bool
  | .push none => ({ s with heap := s.heap ++ [[]] }, true)
  | .push (some _) => (s, true)
  | op => s.step op

def Stack.run (s : Stack K V) (ops : List (CtxOp K V)) : Stack K V :=
  ops.foldl (fun s op => (s.step op).1) s

def Stack.runRegistry (s : Stack K V) (ops : List (CtxOp K V)) : Stack K V :=
  ops.foldl (fun s op => (s.stepRegistry op).1) s

/-- The loop of `ContextStack.get_node` (51-56) over the reversed stack; entries are non-empty
tuples and so always truthy. `none` stands for the `ValueError`. -/
def searchTop (heap : List (Dict K V)) : List Nat → K → Option V
  | [], _ => none
  | c :: cs, k =>
    match Dict.get (heap[c]?.getD []) k with
    | some v => some v
    | none => searchTop heap cs k

def Stack.getNode (s : Stack K V) (k : K) : Option V := searchTop s.heap s.stack.reverse k

/-- `ContextStack.get_node_map` (58-62), `SchemaRegistryStack.get_map` (63-67). -/
def Stack.getMap (s : Stack K V) : Dict K V :=
  s.stack.foldl (fun d c => d.update (s.heap[c]?.getD [])) []

/-! ### invdes -/

variable {M T Model Fun : Type} [DecidableEq M] [DecidableEq T]

/-- `OptplanContext._optplan_node_map` (44). The creator may be `None`. -/
abbrev PCtx (M T Model Fun : Type) := Dict M (Dict T (Model × Option Fun))

/-- `OptplanContext.get_node_model` (46-63). -/
def PCtx.model (c : PCtx M T Model Fun) (m : M) (t : T) : Option Model :=
  match c.get m with
  | none => none
  | some d =>
    match d.get t with
    | none => none
    | some e => some e.1

/-- `OptplanContext.get_node_creator` (65-82). -/
def PCtx.creator (c : PCtx M T Model Fun) (m : M) (t : T) : Option Fun :=
  match c.get m with
  | none => none
  | some d =>
    match d.get t with
    | none => none
    | some e => e.2

/-- `OptplanContext.get_node_model_dict` (84-102). -/
def PCtx.modelDict (c : PCtx M T Model Fun) (m : M) : Dict T Model :=
  match c.get m with
  | none => []
  | some d => d.map (fun e => (e.1, e.2.1))

/-- `OptplanContext.register_node_type` (104-126); `none` if it raises. -/
def PCtx.register (c : PCtx M T Model Fun) (m : M) (t : T) (model : Model) (fn : Option Fun) :
    Option (PCtx M T Model Fun) :=
  let nodeMap := (c.get m).getD []
  match nodeMap.get t with
  | some _ => none
  | none => some (c.set m (nodeMap.set t (model, fn)))

structure PStack (M T Model Fun : Type) where
  heap : List (PCtx M T Model Fun)
  stack : List Nat

/-- `OptplanContextStack.__init__` (144-148). -/
def PStack.init : PStack M T Model Fun := { heap := [], stack := [] }

inductive PCtxOp (M T Model Fun : Type) where
  | create
  | push (c : Nat)
  | pop
  | registerIn (c : Nat) (m : M) (t : T) (model : Model) (fn : Option Fun)

/-- `push` (150-156) and `pop` (158-166), and registration in a context object. Registration always
goes through a context object (`peek().register_node_type`, `optplan/__init__.py` 58, 99). -/
def PStack.step (s : PStack M T Model Fun) : PCtxOp M T Model Fun → PStack M T Model Fun × Bool
  | .create => ({ s with heap := s.heap ++ [[]] }, false)
  | .push c =>
    if c < s.heap.length then ({ s with stack := s.stack ++ [c] }, false) else (s, true)
  | .pop => ({ s with stack := s.stack.dropLast }, false)
  | .registerIn c m t model fn =>
    match s.heap[c]? with
    | none => (s, true)
    | some d =>
      match d.register m t model fn with
      | none => (s, true)
      | some d' => ({ s with heap := s.heap.set c d' }, false)

def PStack.run (s : PStack M T Model Fun) (ops : List (PCtxOp M T Model Fun)) :
    PStack M T Model Fun :=
  ops.foldl (fun s op => (s.step op).1) s

/-- The loops of `get_node_model` (178-197) and `get_node_creator` (199-218); models are classes and
creators functions, both truthy. -/
def pSearch {A : Type} (look : Nat → Option A) : List Nat → Option A
  | [] => none
  | c :: cs =>
    match look c with
    | some a => some a
    | none => pSearch look cs

def PStack.getModel (s : PStack M T Model Fun) (m : M) (t : T) : Option Model :=
  pSearch (fun c => PCtx.model (s.heap[c]?.getD []) m t) s.stack.reverse

def PStack.getCreator (s : PStack M T Model Fun) (m : M) (t : T) : Option Fun :=
  pSearch (fun c => PCtx.creator (s.heap[c]?.getD []) m t) s.stack.reverse

/-- `get_node_model_dict` (220-234). -/
def PStack.getModelDict (s : PStack M T Model Fun) (m : M) : Dict T Model :=
  s.stack.foldl (fun d c => d.update (PCtx.modelDict (s.heap[c]?.getD []) m)) []

end Verif.Schema
