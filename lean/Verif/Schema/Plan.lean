import Verif.Schema.Names
/-
Model of `dumps` and `loads`: `spins/goos/optplan/schema.py` 275-570 and
`spins/invdes/problem_graph/optplan/io.py` 70-420. Models are mutable objects that may be shared, so
they live in a heap; the functions below change fields in place as the code does.

Not modelled: the schema validation of `schematics` and `validate_references` (both only check
types; the plan is assumed to be well typed) and the conversion of plain data to JSON and back,
which is taken to be lossless. Containers nested deeper than one level are taken to hold plain data
only (`_iter_optplan_fields` does not look into them).
-/
namespace Verif.Schema

/-- A value held by a field, or an element of a list or dictionary field: plain data, a string in a
place where a reference is expected, or a `schematics` model. -/
inductive Item (P : Type) where
  | prim (p : P)
  | str (s : Str)
  | obj (x : Nat)

/-- A field. `info` stands for its name, its type, and the shape of its value (absent, single,
list, dictionary with its keys), none of which is changed by the functions modelled here. `isRef`:
the type is `ReferenceType`, or a list or dictionary of them. -/
structure Field (P I : Type) where
  info : I
  isRef : Bool
  items : List (Item P)

/-- A `schematics` model. `isNode`: it is a `ProblemGraphNodeSchema`/`ProblemGraphNode`. `hdr` stands
for the class. -/
structure Obj (P I H : Type) where
  isNode : Bool
  name : Str
  hdr : H
  fields : List (Field P I)

abbrev Heap (P I H : Type) := Nat → Obj P I H

/-- `OptimizationPlanSchema` (`schema_optplan.py` 152-170) and `OptimizationPlan` (invdes
`optplan.py`); `actions` are the transformations in invdes. -/
structure PlanObj where
  version : List Int
  nodes : List Nat
  actions : List Nat

variable {P I H : Type}

def Heap.upd (h : Heap P I H) (x : Nat) (o : Obj P I H) : Heap P I H :=
  fun y => if y = x then o else h y

/-! ### `_iter_optplan_fields` (goos 275-370, invdes 114-212) -/

structure IterSt (P I H : Type) where
  heap : Heap P I H
  visited : List Nat

/-- The recursion over the models among the values of a field (341-357). -/
def iterItems (rec : IterSt P I H → Nat → Option (IterSt P I H)) :
    List (Item P) → IterSt P I H → Option (IterSt P I H)
  | [], s => some s
  | .obj y :: is, s => (rec s y).bind (iterItems rec is)
  | _ :: is, s => iterItems rec is s

/-- The list comprehensions of lines 360-370; `none` if `process_field` raises. -/
def processItems (pf : Heap P I H → Item P → Option (Item P)) (h : Heap P I H) :
    List (Item P) → Option (List (Item P))
  | [] => some []
  | i :: is => (pf h i).bind fun i' => (processItems pf h is).map (i' :: ·)

/-- `model[field_name] = ...`. -/
def setField (h : Heap P I H) (x k : Nat) (items : List (Item P)) : Heap P I H :=
  h.upd x { h x with fields := (h x).fields.modify k (fun f => { f with items := items }) }

/-- The loop over the fields (336-370); field values are read from the object each time. -/
def iterFields (rec : IterSt P I H → Nat → Option (IterSt P I H))
    (pf : Heap P I H → Item P → Option (Item P)) (x : Nat) :
    List Nat → IterSt P I H → Option (IterSt P I H)
  | [], s => some s
  | k :: ks, s =>
    match (s.heap x).fields[k]? with
    | none => iterFields rec pf x ks s
    | some f =>
      (iterItems rec f.items s).bind fun s1 =>
        match (s1.heap x).fields[k]? with
        | none => iterFields rec pf x ks s1
        | some f1 =>
          if f1.isRef then
            (processItems pf s1.heap f1.items).bind fun items =>
              iterFields rec pf x ks { s1 with heap := setField s1.heap x k items }
          else iterFields rec pf x ks s1

/-- `_iter_optplan_fields`; the first argument bounds the depth of the recursion. -/
def iterObj (pf : Heap P I H → Item P → Option (Item P)) :
    Nat → IterSt P I H → Nat → Option (IterSt P I H)
  | 0, _, _ => none
  | n + 1, s, x =>
    if x ∈ s.visited then some s
    else iterFields (iterObj pf n) pf x (List.range (s.heap x).fields.length)
      { s with visited := x :: s.visited }

/-- One call after the other. -/
def iterAll (pf : Heap P I H → Item P → Option (Item P)) (n : Nat) :
    List Nat → IterSt P I H → Option (IterSt P I H)
  | [], s => some s
  | x :: xs, s => (iterObj pf n s x).bind (iterAll pf n xs)

/-! ### `_extract_nodes` (goos 520-546, invdes 360-386) -/

/-- The models among the values of an object, in order. -/
def Obj.children (o : Obj P I H) : List Nat :=
  (o.fields.flatMap Field.items).filterMap (fun i => match i with | .obj y => some y | _ => none)

def extractList (rec : List Nat → Nat → Option (List Nat)) : List Nat → List Nat → Option (List Nat)
  | [], l => some l
  | x :: xs, l => (rec l x).bind (extractList rec xs)

/-- `eq` is the equality of `schematics` models, which `value not in model_list` uses. -/
def extract (eq : Heap P I H → Nat → Nat → Bool) (h : Heap P I H) :
    Nat → List Nat → Nat → Option (List Nat)
  | 0, _, _ => none
  | n + 1, l, x =>
    if (h x).isNode then
      if l.any (fun y => eq h y x) then some l
      else extractList (extract eq h n) (h x).children (l ++ [x])
    else extractList (extract eq h n) (h x).children l

/-- `process_field` of `_replace_ref_nodes_with_names` (goos 562-568). -/
def toName (eq : Heap P I H → Nat → Nat → Bool) (modelList : List Nat) (h : Heap P I H) :
    Item P → Option (Item P)
  | .str s => some (.str s)
  | .prim _ => none
  | .obj y => (modelList.find? (fun z => eq h z y)).map (fun z => .str (h z).name)

/-! ### The JSON text -/

/-- The tree that is written to the file. A value of this type is a list of items (`nil`, `leaf`,
`sub`) or a list of fields (`nil`, `field`). -/
inductive J (P I H : Type) where
  | nil
  | leaf (i : P ⊕ Str) (rest : J P I H)
  | sub (isNode : Bool) (name : Str) (hdr : H) (fields : J P I H) (rest : J P I H)
  | field (info : I) (isRef : Bool) (items : J P I H) (rest : J P I H)

/-- `to_primitive` on the values of a field. -/
def expItems (rec : Nat → J P I H) (h : Heap P I H) : List (Item P) → J P I H
  | [] => .nil
  | .prim p :: is => .leaf (.inl p) (expItems rec h is)
  | .str s :: is => .leaf (.inr s) (expItems rec h is)
  | .obj y :: is => .sub (h y).isNode (h y).name (h y).hdr (rec y) (expItems rec h is)

def expFields (rec : Nat → J P I H) (h : Heap P I H) : List (Field P I) → J P I H
  | [] => .nil
  | f :: fs => .field f.info f.isRef (expItems rec h f.items) (expFields rec h fs)

/-- `to_primitive` on a model: its fields. The first argument bounds the nesting depth. -/
def expObj (h : Heap P I H) : Nat → Nat → J P I H
  | 0, _ => .nil
  | n + 1, x => expFields (expObj h n) h (h x).fields

/-- The serialised plan: one list of models for the nodes and one for the actions. -/
structure Serialised (P I H : Type) where
  version : List Int
  nodes : J P I H
  actions : J P I H

/-- `dumps` (goos 490-517, invdes 328-357). `deepcopy` gives an isomorphic copy of the objects, so
the copy's heap is the same up to the choice of ids; the caller's heap is not changed because the
heap is passed by value. invdes also names unnamed nodes first (`autoname`); here all nodes have
names. -/
def dumps (eq : Heap P I H → Nat → Nat → Bool) (fuel : Nat) (h : Heap P I H) (p : PlanObj) :
    Option (Serialised P I H) :=
  (extractList (extract eq h fuel) (p.nodes ++ p.actions) []).bind fun l =>
  (iterAll (toName eq l) fuel (p.nodes ++ p.actions) ⟨h, []⟩).bind fun s =>
  if checkNames (l.map (fun x => (s.heap x).name)) [] then
    some { version := p.version,
           nodes := expItems (expObj s.heap fuel) s.heap (l.map .obj),
           actions := expItems (expObj s.heap fuel) s.heap (p.actions.map .obj) }
  else none

/-! ### Reading -/

/-- New objects are stored at the next free place. -/
structure Alloc (P I H : Type) where
  heap : Heap P I H
  next : Nat

mutual
/-- The constructors of the models, reading items. -/
def impItems : J P I H → Alloc P I H → List (Item P) × Alloc P I H
  | .nil, a => ([], a)
  | .leaf (.inl p) rest, a =>
    let r := impItems rest a
    (.prim p :: r.1, r.2)
  | .leaf (.inr s) rest, a =>
    let r := impItems rest a
    (.str s :: r.1, r.2)
  | .sub isNode name hdr fields rest, a =>
    let r := impFields fields a
    let a' : Alloc P I H := ⟨r.2.heap.upd r.2.next ⟨isNode, name, hdr, r.1⟩, r.2.next + 1⟩
    let r' := impItems rest a'
    (.obj r.2.next :: r'.1, r'.2)
  | .field _ _ _ _, a => ([], a)

/-- The constructors of the models, reading fields. -/
def impFields : J P I H → Alloc P I H → List (Field P I) × Alloc P I H
  | .field info isRef items rest, a =>
    let r := impItems items a
    let r' := impFields rest r.2
    (⟨info, isRef, r.1⟩ :: r'.1, r'.2)
  | .nil, a => ([], a)
  | .leaf _ _, a => ([], a)
  | .sub _ _ _ _ _, a => ([], a)
end

/-- The ids of the models in a list of items. -/
def itemIds (is : List (Item P)) : List Nat :=
  is.filterMap (fun i => match i with | .obj y => some y | _ => none)

/-- `process_field` of `loads` (goos 475-476): `node_map[child_model]`. -/
def toObj (h : Heap P I H) (nodes : List Nat) : Heap P I H → Item P → Option (Item P)
  | _, .str s => (nodes.reverse.find? (fun x => (h x).name = s)).map .obj
  | _, _ => none

/-- `loads` (goos 456-487, invdes 294-325); `accept` is the version check. `node_map` (470-472) maps a
name to the last node with that name. -/
def loads (accept : List Int → Bool) (fuel : Nat) (empty : Obj P I H) (ser : Serialised P I H) :
    Option (Heap P I H × PlanObj) :=
  let rn := impItems ser.nodes ⟨fun _ => empty, 0⟩
  let ra := impItems ser.actions rn.2
  let h := ra.2.heap
  let nodes := itemIds rn.1
  let actions := itemIds ra.1
  if checkNames (nodes.map (fun x => (h x).name)) [] && accept ser.version then
    (iterAll (toObj h nodes) fuel (actions ++ nodes) ⟨h, []⟩).bind fun s =>
      some (s.heap, { version := ser.version, nodes := nodes, actions := actions })
  else none

end Verif.Schema
