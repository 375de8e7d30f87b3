import Verif.Schema.Names
import Mathlib.Data.Rat.Defs
/-
Schemas generated from constructors: `spins/goos/optplan/schema.py` `construct_schema` (77-146),
`_convert_type_to_schematics` (149-214), `_convert_param_to_schematics` (217-242);
`spins/goos/optplan/optplan.py` `ProblemGraphNodeMeta.__new__` (20-88), the record of a call (127-132) and the
parameters with which a node is made again (325-333); `schema_optplan.py` `NodeSchema.__init__`
(48-100), `validate_references` for immediate fields (`schema.py` 414-440); `schema_utils.py`
`KwargsModelMixin` (168-187) and `Model.Options` (193-195); `context.py` `register_node` (20-24), `get_node` (51-56) with one
context.

From the library `schematics` we take: a class has the fields of its bases, those of the first base
winning, and its own; a new instance has the default of a field without value, else `None`; fields
that are `None` are not exported (`serialize_when_none = False`); a required field that is `None` does
not validate. Positional arguments are in the model of C101, references by name in that of C13, the
writing of values in that of C108.
-/
namespace Verif.Schema.Gen

/-- The field `name`. -/
def kName : Str := ['n', 'a', 'm', 'e']
/-- The field `type`. -/
def kType : Str := ['t', 'y', 'p', 'e']

/-- Type annotations. `node`, `model` and `oldModel` are classes derived from `ProblemGraphNode`,
`optplan.Model` and `schematics.models.Model`; `cls` is any other class, with `NoneType` the class 0;
`generic` a generic type that is not a list (`Dict[...]`, `Tuple[...]`); `special` something that is
not a class (`typing.Any`, a string). -/
inductive Ann where
  | int | float | str | bool | complex | array
  | union (ts : List Ann)
  | list (t : Ann)
  | generic
  | node (c : Nat)
  | model (c : Nat)
  | oldModel (c : Nat)
  | cls (c : Nat)
  | special

/-- Schema types. -/
inductive SType where
  | int | float | string | boolean | complex | array
  | union (ts : List SType)
  | list (t : SType)
  | ref (c : Nat)
  | poly (c : Nat)

/-- What can go wrong. -/
inductive Err where
  | badType | badParam | ambiguous | registered | unknown | badName | badRef | invalid | call
deriving DecidableEq

mutual
/-- `_convert_type_to_schematics` (149-214). `issubclass` of something that is not a class raises. -/
def convert : Ann → Except Err SType
  | .int => .ok .int
  | .float => .ok .float
  | .str => .ok .string
  | .bool => .ok .boolean
  | .complex => .ok .complex
  | .array => .ok .array
  | .union ts =>
    match convertAll ts with
    | .error e => .error e
    | .ok l => .ok (.union l)
  | .list t =>
    match convert t with
    | .error e => .error e
    | .ok s => .ok (.list s)
  | .generic => .error .badType
  | .node c => .ok (.ref c)
  | .model c => .ok (.poly c)
  | .oldModel c => .ok (.poly c)
  | .cls _ => .error .badType
  | .special => .error .badType
/-- The loop 188-190. -/
def convertAll : List Ann → Except Err (List SType)
  | [] => .ok []
  | t :: ts =>
    match convert t with
    | .error e => .error e
    | .ok s =>
      match convertAll ts with
      | .error e => .error e
      | .ok l => .ok (s :: l)
end

/-- Values: arguments of constructors. A node is given by its class and its name; the class is that of
its schema, for casts (`wild`) a schema that passes for every class (`WildcardSchema`). -/
inductive Val where
  | none
  | bool (b : Bool)
  | int (n : Int)
  | float (q : Rat)
  | str (s : Str)
  | complex (a b : Rat)
  | array (l : List Rat)
  | list (l : List Val)
  | node (c : Nat) (wild : Bool) (name : Str)
  | model (c : Nat)

/-- `value is None`. -/
def Val.isNone : Val → Bool
  | .none => true
  | _ => false

/-- A parameter of `__init__` without `self`. -/
structure Param where
  name : Str
  ann : Option Ann
  default : Option Val
  variadic : Bool

/-- A field of a schema. -/
structure Field where
  stype : SType
  default : Option Val
  required : Bool

/-- The fields of a schema. -/
abbrev Fields := List (Str × Field)

/-- Reading a dictionary. -/
def look {A : Type} (k : Str) : List (Str × A) → Option A
  | [] => none
  | (k', a) :: l => if k' = k then some a else look k l

/-- Writing a dictionary. -/
def put {A : Type} (k : Str) (a : A) : List (Str × A) → List (Str × A)
  | [] => [(k, a)]
  | (k', a') :: l => if k' = k then (k, a) :: l else (k', a') :: put k a l

/-- `update`. -/
def putAll {A : Type} : List (Str × A) → List (Str × A) → List (Str × A)
  | [], s => s
  | (k, a) :: l, s => putAll l (put k a s)

/-- The truth value of `param.default != param.empty` (237, `optplan.py` 48): an array is compared
entry by entry, which is ambiguous for more than one entry and false for none. -/
def neEmpty : Option Val → Except Err Bool
  | none => .ok false
  | some (.array []) => .ok false
  | some (.array [_]) => .ok true
  | some (.array (_ :: _ :: _)) => .error .ambiguous
  | some _ => .ok true

/-- `_convert_param_to_schematics` (217-242). -/
def convertParam (ann : Ann) (default : Option Val) : Except Err Field :=
  match convert ann with
  | .error e => .error e
  | .ok s =>
    match neEmpty default with
    | .error e => .error e
    | .ok true => .ok ⟨s, default, false⟩
    | .ok false => .ok ⟨s, none, true⟩

/-- The loop over the parameters in `construct_schema` (140-142). -/
def convertParams : List Param → Except Err Fields
  | [] => .ok []
  | p :: ps =>
    match p.ann with
    | none => .error .badParam
    | some a =>
      match convertParam a p.default with
      | .error e => .error e
      | .ok f =>
        match convertParams ps with
        | .error e => .error e
        | .ok l => .ok ((p.name, f) :: l)

/-- The checks of the parameters (`optplan.py` 36-58). -/
def checkParam (p : Param) : Except Err Unit :=
  if p.name = kName ∨ p.name = kType then .error .badParam
  else if p.ann.isNone then .error .badParam
  else
    match neEmpty p.default with
    | .error e => .error e
    | .ok _ => if p.variadic then .error .badParam else .ok ()

/-- The loop of these checks. -/
def checkParams : List Param → Except Err Unit
  | [] => .ok ()
  | p :: ps =>
    match checkParam p with
    | .error e => .error e
    | .ok _ => checkParams ps

/-- A node class after its definition. `init`: the signature of `__init__`, its own or the inherited
one; `fields` and `schemaBases`: its schema and the classes from whose schemas that is derived. -/
structure Cls where
  nodeType : Str
  bases : List Nat
  init : List Param
  ownInit : Bool
  fields : Fields
  schemaBases : List Nat
  custom : Bool

/-- The definition of a class: `node_type`, the bases that are node classes, `__init__` and `Schema` if
they are in the body of the class. -/
structure Decl where
  nodeType : Str
  bases : List Nat
  init : Option (List Param)
  schema : Option Fields

/-- Fields of the schemas of the bases; those of the first base win. -/
def inherited (cs : List Cls) (bases : List Nat) : Fields :=
  bases.reverse.foldl (fun s b => match cs[b]? with
    | none => s
    | some c => putAll c.fields s) []

/-- The signature of `__init__` (35): the own one or that of the first base (for a diamond of bases
Python's order may find another one). -/
def signature (cs : List Cls) (d : Decl) : List Param :=
  match d.init with
  | some ps => ps
  | none =>
    match d.bases.head?.bind (cs[·]?) with
    | none => []
    | some c => c.init

/-- The field `type` (79-81). -/
def typeField (t : Str) : Field := ⟨.string, some (.str t), false⟩

/-- The definition of a node class (20-88) that is registered. Nodes are registered under their
`node_type`. -/
def define (cs : List Cls) (d : Decl) : Except Err (List Cls) :=
  match checkParams (signature cs d) with
  | .error e => .error e
  | .ok _ =>
    match (match d.schema, d.init with
      | some s, _ => Except.ok (s, ([] : List Nat))
      | none, some ps =>
        match convertParams ps with
        | .error e => .error e
        | .ok l => .ok (putAll (put kType (typeField d.nodeType) (putAll l [])) (inherited cs d.bases), d.bases)
      | none, none => .ok (inherited cs d.bases, d.bases)) with
    | .error e => .error e
    | .ok (fs, sb) =>
      if (cs.map Cls.nodeType).contains d.nodeType then .error .registered
      else .ok (cs ++ [⟨d.nodeType, d.bases, signature cs d, d.init.isSome, fs, sb, d.schema.isSome⟩])

/-! ### Instances -/

/-- A new instance of a schema from a dictionary: for every field the value given, else the default,
else `None`. -/
def instantiate (fs : Fields) (kw : List (Str × Val)) : List (Str × Val) :=
  fs.map fun e => (e.1, (look e.1 kw).getD (e.2.default.getD .none))

/-- Class `a` is `b` or derived from it, through the bases given by `up`; the first argument bounds
the depth. -/
def derives (up : Nat → List Nat) : Nat → Nat → Nat → Bool
  | 0, a, b => decide (a = b)
  | n + 1, a, b => decide (a = b) || (up a).any fun c => derives up n c b

/-- `issubclass` of schemas. -/
def schemaDerives (cs : List Cls) (a b : Nat) : Bool :=
  derives (fun i => match cs[i]? with | none => [] | some c => c.schemaBases) cs.length a b

/-- The value of a reference field passes (`schema_optplan.py` 83-100): `None`, a name, an instance of the
right schema, or a wildcard. -/
def refOk (cs : List Cls) : SType → Val → Bool
  | .ref c, v =>
    match v with
    | .none => true
    | .str _ => true
    | .node c' wild _ => schemaDerives cs c' c || wild
    | _ => false
  | _, _ => true

/-- `NodeSchema.__init__` (48-100) for data that contain a name. -/
def nodeSchema (cs : List Cls) (fs : Fields) (kw : List (Str × Val)) : Except Err (List (Str × Val)) :=
  let data := instantiate fs kw
  match look kName data with
  | some (.str ('_' :: '_' :: _)) => .error .badName
  | _ =>
    if fs.all (fun e => refOk cs e.2.stype ((look e.1 data).getD .none)) then .ok data
    else .error .badRef

/-- The record of a call (127-132): `args` are the arguments by name, `name` the name of the node. -/
def recordCall (cs : List Cls) (c : Cls) (args : List (Str × Val)) (name : Str) :
    Except Err (List (Str × Val)) :=
  nodeSchema cs c.fields (args ++ [(kName, .str name)])

/-! ### Saving and loading one node -/

/-- `node.validate()`: required fields have values. (Conversions of values by `schematics` are left out.) -/
def valid (fs : Fields) (data : List (Str × Val)) : Bool :=
  fs.all fun e => !e.2.required || !((look e.1 data).getD .none).isNone

/-- `to_primitive` leaves out what is `None`. -/
def exportData (data : List (Str × Val)) : List (Str × Val) := data.filter fun e => !e.2.isNone

/-- Saving a node. -/
def saveNode (fs : Fields) (data : List (Str × Val)) : Except Err (List (Str × Val)) :=
  if valid fs data then .ok (exportData data) else .error .invalid

/-- `get_node(value["type"])`: the class registered for a type. -/
def classOf (cs : List Cls) (t : Val) : Option (Nat × Cls) :=
  match t with
  | .str t => (cs.zipIdx.find? fun e => decide (e.1.nodeType = t)).map fun e => (e.2, e.1)
  | _ => none

/-- Python accepts keyword arguments: all are parameters, and all parameters without default are given. -/
def acceptsKw (ps : List Param) (kw : List (Str × Val)) : Bool :=
  kw.all (fun e => (ps.map Param.name).contains e.1) &&
  ps.all fun p => p.default.isSome || (look p.name kw).isSome

/-- Loading a node: the model is made (`schema_optplan.py` 140-152) and validated, then the class is
called with all its fields except `type` as keyword arguments (`optplan.py` 325-333); `name` is taken out by
`ProblemGraphNodeMeta.__call__` (97-99). The result: the class, the name and the arguments. -/
def loadNode (cs : List Cls) (raw : List (Str × Val)) : Except Err (Nat × Option Val × List (Str × Val)) :=
  match (look kType raw).bind (classOf cs) with
  | none => .error .unknown
  | some (i, c) =>
    match nodeSchema cs c.fields raw with
    | .error e => .error e
    | .ok data =>
      if valid c.fields data then
        let kw := data.filter fun e => decide (e.1 ≠ kType ∧ e.1 ≠ kName)
        if acceptsKw c.init kw then .ok (i, look kName data, kw) else .error .call
      else .error .invalid

/-- The classes before any definition by a user: `ProblemGraphNode` (185-200), whose schema has a
required name. (Its own parameters `deps` and `heavy_compute` are left out: a class that uses its
constructor directly cannot be called with them, since they are no fields.) -/
def base : List Cls :=
  [⟨"goos.problem_graph_node".toList, [], [], true, [(kName, ⟨.string, none, true⟩)], [], true⟩]

/-- What Python guarantees of a class definition: there is a base, bases exist already, parameters have
different names; and a schema written by hand has distinct fields, one of them the name (it derives
from `NodeSchema`). -/
structure Decl.Ok (cs : List Cls) (d : Decl) : Prop where
  bases_ne : d.bases ≠ []
  bases_lt : ∀ b ∈ d.bases, b < cs.length
  params : ∀ ps, d.init = some ps → (ps.map Param.name).Nodup
  custom : ∀ s, d.schema = some s → (s.map Prod.fst).Nodup ∧ kName ∈ s.map Prod.fst

/-- Classes defined one after the other. -/
inductive Program : List Cls → Prop
  | base : Program base
  | define {cs cs' : List Cls} (d : Decl) : Program cs → d.Ok cs → define cs d = .ok cs' → Program cs'

end Verif.Schema.Gen
