import Verif.Schema.Rebuild
import Mathlib.Data.List.Forall2
import Mathlib.Data.List.Nodup
/-
What it means that a loaded plan is the saved plan.
-/
namespace Verif.Schema.Rebuild
variable {P : Type}

/-- The argument `a` of a node object is the argument `s` in the file: plain data is equal and names
stand for the nodes that the plan has under them. -/
def Matches (look : Str → Option Nat) : SArg P → Arg P → Prop
  | .val p, .val p' => p' = p
  | .ref c, .node x => look c = some x
  | .refs cs, .nodes xs => cs.map look = xs.map some
  | _, _ => False

/-- The object `o` is the node `m` of the file. -/
structure Is (look : Str → Option Nat) (m : SNode P) (o : Obj P) : Prop where
  type : o.type = m.type
  name : o.name = m.name
  args : List.Forall₂ (fun f a => a.1 = f.1 ∧ Matches look f.2 a.2) m.fields o.args

/-- The plan has every node of the file, under its name, with its class and its arguments. -/
def Rebuilt (file : List (SNode P)) (st : St P) : Prop :=
  ∀ m ∈ file, ∃ x o, get st.map m.name = some x ∧ st.objs[x]? = some o ∧ Is (get st.map) m o

/-- The argument `a'` is the argument `a`, nodes being compared by `corr`. -/
def SameArg (corr : Nat → Nat → Prop) : Arg P → Arg P → Prop
  | .val p, .val p' => p' = p
  | .node x, .node x' => corr x x'
  | .nodes xs, .nodes xs' => List.Forall₂ corr xs xs'
  | _, _ => False

/-- The plan `st'` has, for every node of the plan `st`, a node with the same name, class and
arguments, where the nodes among the arguments are again the ones with the same names. -/
def SameNodes (st st' : St P) : Prop :=
  ∀ (x : Nat) (o : Obj P), st.objs[x]? = some o → ∃ (x' : Nat) (o' : Obj P), get st'.map o.name = some x' ∧ st'.objs[x']? = some o' ∧
    o'.type = o.type ∧ o'.name = o.name ∧
    List.Forall₂ (fun e e' => e'.1 = e.1 ∧
      SameArg (fun y y' => ∃ oy : Obj P, st.objs[y]? = some oy ∧ get st'.map oy.name = some y') e.2 e'.2)
      o.args o'.args

/-- The conventions node classes keep: distinct parameters; only nodes among the arguments are
passed on as inputs; nodes made by a constructor belong to registered classes that make no further
nodes. -/
structure Sound (lib : Lib P) : Prop where
  params : ∀ t c, lib t = some c → (c.params.map Param.name).Nodup
  inputs : ∀ t c, lib t = some c → ∀ args, ∀ x ∈ c.inputs args, ∃ e ∈ args, (x ∈ match e.2 with
    | .val _ => []
    | .node y => [y]
    | .nodes ys => ys
    | .tuple ys => ys)
  aux : ∀ t c, lib t = some c → ∀ pl, ∀ a ∈ c.aux pl, ∃ c', lib a.1 = some c' ∧
    a.2.map Prod.fst = c'.params.map Param.name ∧
    c'.aux (a.2.map fun e => (e.1, some e.2)) = [] ∧
    c'.rebuildable (a.2.map fun e => (e.1, some e.2)) = true

/-- The nodes of type `t` that the constructors of these nodes make themselves. -/
def auxOf (lib : Lib P) (t : Str) (file : List (SNode P)) : Nat :=
  (file.map fun m => match lib m.type with
    | none => 0
    | some c => (c.aux (m.fields.map fun e => (e.1, e.2.plain))).countP
        (fun a => decide (a.1 = t))).sum

/-- The file can be read by the classes: every node has a name and a registered class, with one field for
each parameter, and the creator accepts them; names are distinct. -/
structure Readable (lib : Lib P) (file : List (SNode P)) : Prop where
  names : (file.map SNode.name).Nodup
  named : ∀ m ∈ file, m.name ≠ []
  classes : ∀ m ∈ file, ∃ c, lib m.type = some c ∧ m.fields.map Prod.fst = c.params.map Param.name ∧
    c.rebuildable (m.fields.map fun e => (e.1, e.2.plain)) = true

/-- The states of a plan whose nodes are made one after the other while it is the current plan: the
calls are accepted, their arguments hold nodes made before and no tuples of nodes, and names given by
the user are new, not empty and free of periods (as the documentation of `generate_name` asks,
`schema.py` 247-256). -/
inductive History (lib : Lib P) (c0 : Counters) : St P → Prop
  | start (fl : Str → List (Str × Arg P)) : History lib c0 ⟨[], [], c0, [], fl⟩
  | step (st st' : St P) (op : Op P) : History lib c0 st → runOp lib st op = some st' →
      (∀ a : Arg P, a ∈ op.pos ∨ (∃ k, (k, a) ∈ op.kw) → (∀ x, a = .node x → x < st.objs.length) ∧
        (∀ xs, a = .nodes xs → ∀ x ∈ xs, x < st.objs.length) ∧ (∀ xs, a ≠ .tuple xs)) →
      (∀ n, op.name = some n → n ≠ [] ∧ '.' ∉ n ∧ ∀ o ∈ st.objs, o.name ≠ n) →
      History lib c0 st'

end Verif.Schema.Rebuild
