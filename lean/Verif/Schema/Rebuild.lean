import Verif.Schema.Names
/-
Model of how nodes of a plan are made, recorded, saved and made again:
`spins/goos/optplan/optplan.py` 90-140 (`ProblemGraphNodeMeta.__call__`), 143-156
(`_replace_node_with_schema`), 285-341 (`save`, `load`) and 482-508 (`add_node`), and
`spins/goos/generic.py` 63-79 (`build_cast_op`).

`dumps` and `loads` are modelled in `Verif.Schema.Plan`; here the file is the list of the recorded
nodes in which references are names. Simplifications: arguments are plain data, a node, a list of
nodes or a tuple of nodes; nodes inside dictionaries and inside further models are left out, and so
are the actions, which `load` makes in the same way after the nodes.
-/
namespace Verif.Schema.Rebuild

/-- The value of an argument of a constructor. Node objects are numbered in the order in which they
are made. -/
inductive Arg (P : Type) where
  | val (p : P)
  | node (x : Nat)
  | nodes (xs : List Nat)
  | tuple (xs : List Nat)
deriving DecidableEq

/-- A parameter of `__init__`. -/
structure Param (P : Type) where
  name : Str
  default : Option P
deriving DecidableEq

/-- The part of a record of arguments that consists of plain data. -/
abbrev Plain (P : Type) := List (Str × Option P)

/-- A node class. `aux`: the nodes that `__init__` makes itself, as type and plain arguments (for
example `goos.Constant([0, 0, 0])` when no rotation is given, `shapes.py` 43-44, 109-110, 157-158,
307-308); `inputs`: the nodes among the arguments that it passes to `ProblemGraphNode.__init__`;
`rebuildable`: what the creator registered for the type requires of its arguments when a plan is
loaded (`generic.py` 77-79: the target of a cast must be registered with a class). -/
structure Cls (P : Type) where
  params : List (Param P)
  aux : Plain P → List (Str × List (Str × P))
  inputs : List (Str × Arg P) → List Nat
  rebuildable : Plain P → Bool

/-- The registered node types. -/
abbrev Lib (P : Type) := Str → Option (Cls P)

/-- A node object: `node_type`, `_goos_name`, the recorded arguments (`_goos_schema`) and
`_goos_inputs`. -/
structure Obj (P : Type) where
  type : Str
  name : Str
  args : List (Str × Arg P)
  inputs : List Nat
deriving DecidableEq

/-- All objects, the node map of the plan, the counters of the generated names, and, during `load`,
the visited models and the fields of models in which names have been replaced by nodes. -/
structure St (P : Type) where
  objs : List (Obj P)
  map : List (Str × Nat)
  counters : Counters
  visited : List Str
  filled : Str → List (Str × Arg P)

variable {P : Type}

/-- `self._node_map[name]`. -/
def get (m : List (Str × Nat)) (name : Str) : Option Nat :=
  (m.find? (fun e => decide (e.1 = name))).map Prod.snd

/-- A keyword argument. -/
def keyword (kw : List (Str × Arg P)) (name : Str) : Option (Arg P) :=
  (kw.find? (fun e => decide (e.1 = name))).map Prod.snd

/-! ### The recording of a call (96-120, 129-132) -/

/-- The loops over positional and keyword arguments (110-118); `none` in the result stands for
`inspect.Parameter.empty`. -/
def record : List (Param P) → List (Arg P) → List (Str × Arg P) → List (Str × Option (Arg P))
  | p :: ps, a :: pos, kw => (p.name, some a) :: record ps pos kw
  | p :: ps, [], kw =>
    (p.name, (keyword kw p.name).orElse fun _ => p.default.map .val) :: record ps [] kw
  | [], _, _ => []

/-- Python accepts the call of `__init__` (120): not too many positional arguments (otherwise line
111 raises), only known keywords, none of them given twice, and every parameter without a default is
given. -/
def accepts (ps : List (Param P)) (pos : List (Arg P)) (kw : List (Str × Arg P)) : Bool :=
  decide (pos.length ≤ ps.length) &&
  kw.all (fun e => ((ps.drop pos.length).map Param.name).contains e.1) &&
  (ps.drop pos.length).all (fun p => p.default.isSome || (keyword kw p.name).isSome)

/-- The arguments recorded for a call that is accepted. -/
def callArgs (ps : List (Param P)) (pos : List (Arg P)) (kw : List (Str × Arg P)) :
    Option (List (Str × Arg P)) :=
  if accepts ps pos kw then
    some ((record ps pos kw).filterMap fun e => e.2.map fun a => (e.1, a))
  else none

/-- The plain part of recorded arguments. -/
def Arg.plain : Arg P → Option P
  | .val p => some p
  | _ => none

/-! ### Making nodes -/

/-- `add_node` (482-508) without the values of variables. The first argument bounds the depth. -/
def addNode : Nat → St P → Nat → St P
  | 0, st, _ => st
  | n + 1, st, x =>
    match st.objs[x]? with
    | none => st
    | some o =>
      if (get st.map o.name).isSome then st
      else o.inputs.foldl (addNode n) { st with map := st.map ++ [(o.name, x)] }

/-- Lines 120-139: the new object gets its name, and the current plan, if it is the plan looked at
here (`isDef`), gets the node. -/
def register (isDef : Bool) (o : Obj P) (st : St P) : St P :=
  let st1 := { st with objs := st.objs ++ [o] }
  if isDef then addNode (st.objs.length + 1) st1 st.objs.length else st1

/-- The nodes made inside `__init__`, all with generated names. -/
def makeAux (isDef : Bool) : List (Str × List (Str × P)) → St P → St P × List Nat
  | [], st => (st, [])
  | (t, fs) :: l, st =>
    let g := generateName st.counters t
    let o : Obj P := ⟨t, g.1, fs.map (fun f => (f.1, .val f.2)), []⟩
    let r := makeAux isDef l (register isDef o { st with counters := g.2 })
    (r.1, st.objs.length :: r.2)

/-- `ProblemGraphNodeMeta.__call__` (90-140) with bound arguments. An empty name counts as none. -/
def construct (c : Cls P) (isDef : Bool) (t : Str) (name : Option Str) (args : List (Str × Arg P))
    (st : St P) : St P × Nat :=
  let r := makeAux isDef (c.aux (args.map fun e => (e.1, e.2.plain))) st
  let g := match name with
    | some (ch :: n) => (ch :: n, r.1.counters)
    | _ => generateName r.1.counters t
  (register isDef ⟨t, g.1, args, c.inputs args ++ r.2⟩ { r.1 with counters := g.2 },
    r.1.objs.length)

/-- A call of a node class by the user. -/
structure Op (P : Type) where
  type : Str
  name : Option Str
  pos : List (Arg P)
  kw : List (Str × Arg P)

/-- The call is carried out; `none`: it raises. -/
def runOp (lib : Lib P) (st : St P) (op : Op P) : Option (St P) :=
  (lib op.type).bind fun c =>
    (callArgs c.params op.pos op.kw).map fun args =>
      (construct c true op.type op.name args st).1

/-! ### Saving -/

/-- A recorded argument in the file. -/
inductive SArg (P : Type) where
  | val (p : P)
  | ref (name : Str)
  | refs (names : List Str)
deriving DecidableEq

/-- A node in the file. -/
structure SNode (P : Type) where
  type : Str
  name : Str
  fields : List (Str × SArg P)
deriving DecidableEq

/-- The name of a node object. -/
def nameOf (st : St P) (x : Nat) : Option Str := (st.objs[x]?).map Obj.name

/-- All or nothing. -/
def allSome {α : Type} : List (Option α) → Option (List α)
  | [] => some []
  | none :: _ => none
  | some a :: l => (allSome l).map (a :: ·)

/-- `_replace_node_with_schema` (143-156) followed by `dumps`: nodes become names. Tuples are left as
they are (146-148), so `validate_references` raises `ValueError` for a tuple of nodes (`schema.py`
433-438). -/
def saveArg (st : St P) : Arg P → Option (SArg P)
  | .val p => some (.val p)
  | .node x => (nameOf st x).map .ref
  | .nodes xs => (allSome (xs.map (nameOf st))).map .refs
  | .tuple _ => none

/-- The record of one node. -/
def saveObj (st : St P) (o : Obj P) : Option (SNode P) :=
  (allSome (o.args.map fun e => (saveArg st e.2).map fun a => (e.1, a))).map fun fs =>
    ⟨o.type, o.name, fs⟩

/-- `save` (285-299): the nodes of the node map in the order in which they were added. -/
def save (st : St P) : Option (List (SNode P)) :=
  allSome (st.map.map fun e => (st.objs[e.2]?).bind (saveObj st))

/-! ### Loading (301-341) -/

/-- The names an argument refers to. -/
def SArg.kids : SArg P → List Str
  | .val _ => []
  | .ref c => [c]
  | .refs cs => cs

/-- The argument with nodes instead of names. -/
def SArg.fill : SArg P → List Nat → Arg P
  | .val p, _ => .val p
  | .ref _, xs => .node (xs.headD 0)
  | .refs _, xs => .nodes xs

/-- The plain part of a field. -/
def SArg.plain : SArg P → Option P
  | .val p => some p
  | _ => none

/-- The recursion into the models of a field (`schema.py` 337-353). -/
def iterKids (rec : St P → Str → Option (St P)) : List Str → St P → Option (St P)
  | [], st => some st
  | c :: cs, st => (rec st c).bind (iterKids rec cs)

/-- The nodes put into a field (`schema.py` 356-370). -/
def makeKids (mk : St P → Str → Option (St P × Nat)) :
    List Str → St P → Option (St P × List Nat)
  | [], st => some (st, [])
  | c :: cs, st =>
    (mk st c).bind fun r => (makeKids mk cs r.1).map fun q => (q.1, r.2 :: q.2)

/-- The loop over the fields of a model (`schema.py` 332-370). -/
def fieldLoop (rec : St P → Str → Option (St P)) (mk : St P → Str → Option (St P × Nat)) :
    List (Str × SArg P) → St P → Option (St P × List (Str × Arg P))
  | [], st => some (st, [])
  | (k, a) :: fs, st =>
    (iterKids rec a.kids st).bind fun s1 =>
      (makeKids mk a.kids s1).bind fun r =>
        (fieldLoop rec mk fs r.1).map fun q => (q.1, (k, a.fill r.2) :: q.2)

/-- The model with a name: `loads` has put the models in place of the names. -/
def model (file : List (SNode P)) (name : Str) : Option (SNode P) :=
  file.find? (fun m => decide (m.name = name))

mutual
/-- `_iter_optplan_fields(model, visited, process_field)` (326); the first argument bounds the depth
of the recursion. -/
def iterNode (lib : Lib P) (isDef : Bool) (file : List (SNode P)) :
    Nat → St P → Str → Option (St P)
  | 0, _, _ => none
  | n + 1, st, name =>
    (model file name).bind fun m =>
      if m.name ∈ st.visited then some st
      else
        (fieldLoop (fun s c => iterNode lib isDef file n s c)
          (fun s c => createNode lib isDef file n s c) m.fields
          { st with visited := m.name :: st.visited }).map fun r =>
            { r.1 with filled := fun y => if y = m.name then r.2 else r.1.filled y }

/-- `_create_node` (322-333). -/
def createNode (lib : Lib P) (isDef : Bool) (file : List (SNode P)) :
    Nat → St P → Str → Option (St P × Nat)
  | 0, _, _ => none
  | n + 1, st, name =>
    (model file name).bind fun m =>
      match get st.map m.name with
      | some x => some (st, x)
      | none =>
        (iterNode lib isDef file n st name).bind fun s =>
          (lib m.type).bind fun c =>
            (callArgs c.params [] (s.filled m.name)).bind fun args =>
              if c.rebuildable (args.map fun e => (e.1, e.2.plain)) then
                some (construct c isDef m.type (some m.name) args s)
              else none
end

/-- The loop of `load` over the nodes (335-337). -/
def loadAll (lib : Lib P) (isDef : Bool) (file : List (SNode P)) (fuel : Nat) :
    List Str → St P → Option (St P)
  | [], st => some st
  | c :: cs, st =>
    (createNode lib isDef file fuel st c).bind fun r =>
      loadAll lib isDef file fuel cs (addNode (r.1.objs.length + 1) r.1 r.2)

/-- `load` into a plan without nodes. `isDef`: the plan is the current plan (`with plan:`); `counters`:
the numbers used so far for generated names in this process. -/
def load (lib : Lib P) (isDef : Bool) (counters : Counters) (fuel : Nat) (file : List (SNode P)) :
    Option (St P) :=
  loadAll lib isDef file fuel (file.map SNode.name) ⟨[], [], counters, [], fun _ => []⟩

end Verif.Schema.Rebuild
