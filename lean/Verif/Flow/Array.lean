import Verif.Flow.Classes
/-
Model of `spins/goos/array.py`: gradients of array flows, `IndexOp`, and the outputs of an array
flow operation (`ArrayFlowOpMixin.__getitem__`).
-/
namespace Verif.Flow
variable {γ : Type}

/-- Python list indexing: a negative index counts from the end; `none` is an `IndexError`. -/
def pyIndex (n : Nat) (i : Int) : Option Nat :=
  if 0 ≤ i then (if i < n then some i.toNat else none)
  else if -(n : Int) ≤ i then some (n + i).toNat else none

/-- One entry of `ArrayFlow.Grad.__iadd__` (`array.py` 36-40): `None + obj == obj`. -/
def iaddEntry (add : γ → γ → Except Err γ) : Option γ → Option γ → Except Err (Option γ)
  | none, y => .ok y
  | some a, some b => (add a b).map some
  | some a, none => .ok (some a)

/-- `ArrayFlow.Grad.__iadd__` (`array.py` 34-41). `add` is `+=` on an entry. An entry is `None` when
no gradient has been given for it. The loop runs over the length of `self`; `value[i]` is read in
both branches, so a shorter `value` is an `IndexError`. Mutation of `self.flows_grad` is the
returned list. -/
def iaddArr (add : γ → γ → Except Err γ) : List (Option γ) → List (Option γ) →
    Except Err (List (Option γ))
  | [], _ => .ok []
  | _ :: _, [] => .error .indexError
  | x :: xs, y :: ys =>
    match iaddEntry add x y with
    | .error e => .error e
    | .ok z => (iaddArr add xs ys).map (z :: ·)

/-- `IndexOp.grad` (`array.py` 213-217): the gradient at the selected entry, `None` elsewhere. -/
def indexGrad (n : Nat) (i : Int) (g : γ) : Except Err (List (Option γ)) :=
  match pyIndex n i with
  | none => .error .indexError
  | some k => .ok ((List.replicate n none).set k (some g))

/-- `IndexOp.eval` (`array.py` 210-211). -/
def indexEval {α : Type} (fs : List α) (i : Int) : Except Err α :=
  match pyIndex fs.length i with
  | none => .error .indexError
  | some k =>
    match fs[k]? with
    | some f => .ok f
    | none => .error .indexError

/-- `grad_vals[node] += g` for the consumers of an array flow, after the first
(`graph_executor.py` 306-312). -/
def accArr (add : γ → γ → Except Err γ) : List (Option γ) → List (List (Option γ)) →
    Except Err (List (Option γ))
  | xs, [] => .ok xs
  | xs, y :: ys =>
    match iaddArr add xs y with
    | .error e => .error e
    | .ok zs => accArr add zs ys

/-- Consumers that are all `IndexOp`s on an array flow with `n` entries: the gradient objects they
hand back, in the order of the backward pass. -/
def indexGrads (n : Nat) : List (Int × γ) → Except Err (List (List (Option γ)))
  | [] => .ok []
  | (i, g) :: cs =>
    match indexGrad n i g with
    | .error e => .error e
    | .ok x => (indexGrads n cs).map (x :: ·)

/-- The gradient accumulated for an array flow with `n` entries from `IndexOp` consumers: the first
object is stored, the others are added. -/
def arrayGrad (add : γ → γ → Except Err γ) (n : Nat) (cs : List (Int × γ)) :
    Except Err (List (Option γ)) :=
  match indexGrads n cs with
  | .error e => .error e
  | .ok [] => .error .keyError
  | .ok (x :: xs) => accArr add x xs

/-! ### Outputs of an array operation -/

/-- What indexing an array operation creates: an `IndexOp` with the index that was used, under a
cast node with an optional name. -/
structure OutNode where
  index : Int
  name : Option String
deriving DecidableEq, Repr

/-- `ArrayFlowOpMixin` (`array.py` 94-193): the name of the operation, `_flow_names`, `_cast_objs`
(nodes are numbered by their position in `nodes`), and all nodes created so far. -/
structure ArrayOp where
  parent : String
  names : List (Option String)
  cache : List (Option Nat)
  nodes : List OutNode
deriving DecidableEq, Repr

/-- The check for duplicate names (131-138): `None` and the empty name are skipped. -/
def namesOk : List (Option String) → List String → Bool
  | [], _ => true
  | none :: ns, seen => namesOk ns seen
  | some s :: ns, seen =>
    if s = "" then namesOk ns seen
    else if s ∈ seen then false else namesOk ns (s :: seen)

/-- `ArrayFlowOpMixin.__init__` (101-150) with `n` flow types. Names `None` or `[]` are replaced by
`[None] * n`. -/
def ArrayOp.init (parent : String) (n : Nat) (names : List (Option String)) :
    Except Err ArrayOp :=
  let ns := if names = [] then List.replicate n none else names
  if namesOk ns [] then .ok ⟨parent, ns, List.replicate n none, []⟩ else .error .valueError

/-- The key of `__getitem__`: an integer, or anything else, which is converted with `str`. -/
inductive Key where
  | int (i : Int)
  | str (s : String)
deriving DecidableEq, Repr

/-- The index a key stands for (164-168): `list.index` raises `ValueError` for unknown names. -/
def ArrayOp.resolve (p : ArrayOp) : Key → Except Err Int
  | .int i => .ok i
  | .str s =>
    match p.names.findIdx? (· = some s) with
    | some k => .ok k
    | none => .error .valueError

/-- The name of a new output node (172-176). The empty name is not prefixed. -/
def ArrayOp.outName (p : ArrayOp) (n : Option String) : Option String :=
  match n with
  | none => none
  | some s => if s = "" then some s else some (p.parent ++ "." ++ s)

/-- `__getitem__` (152-181): returns the cached node for the index or creates it. `_flow_types` has
the length of `_cast_objs`. -/
def ArrayOp.getitem (p : ArrayOp) (key : Key) : Except Err (Nat × ArrayOp) :=
  match p.resolve key with
  | .error e => .error e
  | .ok i =>
    match pyIndex p.cache.length i with
    | none => .error .indexError
    | some k =>
      match p.cache[k]? with
      | none => .error .indexError
      | some (some node) => .ok (node, p)
      | some none =>
        match pyIndex p.names.length i with
        | none => .error .indexError
        | some j =>
          .ok (p.nodes.length, ⟨p.parent, p.names, p.cache.set k (some p.nodes.length),
            p.nodes ++ [⟨i, p.outName ((p.names[j]?).getD none)⟩]⟩)

/-- A history of indexing operations: the node returned by each (`none` if it raised) and the final
state. -/
def ArrayOp.run (p : ArrayOp) : List Key → List (Option Nat) × ArrayOp
  | [] => ([], p)
  | k :: ks =>
    match p.getitem k with
    | .error _ => let r := p.run ks; (none :: r.1, r.2)
    | .ok (node, q) => let r := q.run ks; (some node :: r.1, r.2)

end Verif.Flow
