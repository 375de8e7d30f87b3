import Verif.Flow.ClassesProps
/-
Model of the constant/frozen flags of flows (`spins/goos/flows.py` 66-83, `array.py` 17-29), of the
flag evaluation of `graph_executor.py` `_eval_flags` (138-153), and of `goos.cast` and `goos.rename`
(`generic.py` 9-57, 93-108) inside a plan.
-/
namespace Verif.Flow

/-! ### Flags -/

/-- A `ConstFlags` object: a record of booleans (generated, `flows.py` 67-83), or the flags of an
array flow (`array.py` 17-29). -/
inductive Flags where
  | record (fs : List (String × Bool))
  | arr (fs : List Flags)
deriving Repr

mutual
/-- `bool(flags)` (`flows.py` 74-76, `array.py` 26-27). -/
def Flags.truthy : Flags → Bool
  | .record fs => fs.all Prod.snd
  | .arr fs => Flags.truthyAll fs
/-- `all(flow for flow in self.flow_flags)`. -/
def Flags.truthyAll : List Flags → Bool
  | [] => true
  | f :: fs => f.truthy && Flags.truthyAll fs
end

mutual
/-- `flags.set_all(value)` (`flows.py` 78-80, `array.py` 22-24). -/
def Flags.setAll (b : Bool) : Flags → Flags
  | .record fs => .record (fs.map fun p => (p.1, b))
  | .arr fs => .arr (Flags.setAllList b fs)
/-- `for flow in self.flow_flags: flow.set_all(value)`. -/
def Flags.setAllList (b : Bool) : List Flags → List Flags
  | [] => []
  | f :: fs => f.setAll b :: Flags.setAllList b fs
end

/-- The type of a flow: a class of `goosEnv`, or `ArrayFlow`. -/
inductive FlowType where
  | cls (c : Nat)
  | array
deriving DecidableEq, Repr

/-- `T.ConstFlags()` (`flows.py` 67-72): every flag is `False`; the flags of an array flow are an
empty list (`array.py` 19-20). -/
def newFlags : FlowType → Flags
  | .cls c => .record ((varying goosEnv c).map fun f => (f, false))
  | .array => .arr []

/-- `flags.array`, and other attributes. -/
def Flags.attr (name : String) : Flags → Except Err Bool
  | .record fs =>
    match fs.find? (fun p => p.1 = name) with
    | some p => .ok p.2
    | none => .error .attributeError
  | .arr _ => .error .attributeError

/-- `inputs[i].array`. -/
def inputArray (inputs : List Flags) (i : Nat) : Except Err Bool :=
  match inputs[i]? with
  | none => .error .indexError
  | some f => f.attr "array"

/-- The node classes, as far as their `eval_const_flags` is concerned. `plain` stands for all
classes without such a method (`Sum`, `Product`, `IndexOp`, simulations, ...). -/
inductive Kind where
  | plain | var | constant | cuboid | cylinder | sphere | pixelated | group | translate
deriving DecidableEq, Repr

/-- Keyword arguments taken from `inputs[i].array`, evaluated in order. -/
def flagArgs (inputs : List Flags) : List (String × Nat) → Except Err (List (String × Bool))
  | [] => .ok []
  | (f, i) :: rest =>
    match inputArray inputs i with
    | .error e => .error e
    | .ok b => (flagArgs inputs rest).map ((f, b) :: ·)

/-- `C.ConstFlags(**args)`: fields that are not given keep their default `False`. -/
def recordFlags (c : Nat) (args : List (String × Bool)) : Flags :=
  .record ((varying goosEnv c).map fun f =>
    (f, ((args.find? fun p => p.1 = f).map Prod.snd).getD false))

/-- `eval_const_flags`: `Constant` (`math.py` 79-82), `Cuboid` (`shapes.py` 52-57), `Cylinder`
(113-119), `Sphere` (161-166), `PixelatedContShape` (313-318), `GroupShape` (456-459),
`TranslateShape` (509-511). -/
def ownFlags : Kind → Option (List Flags → Except Err Flags)
  | .plain => none
  | .var => none
  | .constant => some fun _ => .ok (.record [("array", true)])
  | .cuboid => some fun ins =>
    (flagArgs ins [("extents", 0), ("pos", 1), ("rot", 2)]).map (recordFlags 3)
  | .cylinder => some fun ins =>
    (flagArgs ins [("pos", 0), ("radius", 1), ("height", 2), ("rot", 3)]).map (recordFlags 4)
  | .sphere => some fun ins =>
    (flagArgs ins [("pos", 0), ("radius", 1), ("rot", 2)]).map (recordFlags 5)
  | .pixelated => some fun ins =>
    (flagArgs ins [("pos", 0), ("rot", 1), ("array", 2)]).map (recordFlags 6)
  | .group => some fun ins => .ok (.arr ins)
  | .translate => some fun ins =>
    match ins with
    | [] => .error .indexError
    | f :: _ => .ok f

/-- `_eval_flags` (`graph_executor.py` 138-153), for one of the two kinds of flags: the node's own
method if it has one, else all fields set to whether all inputs are flagged. -/
def evalFlags (own : Option (List Flags → Except Err Flags)) (out : FlowType)
    (ins : List Flags) : Except Err Flags :=
  match own with
  | some m => m ins
  | none => .ok ((newFlags out).setAll (ins.all Flags.truthy))

/-! ### Nodes and plans -/

variable {φ V : Type}

/-- Nodes: variables with their name and initial value (`math.py` 95-127), operations, and the
nodes made by `cast` (`generic.py` 39-57) with their name and target class. -/
inductive Node (φ V : Type) where
  | var (name : String) (init : V)
  | op (f : φ) (inputs : List (Node φ V))
  | cast (name : String) (target : Kind) (inner : Node φ V)

/-- What the operations compute: the class of an operation, its `eval`, the type of a flow, and the
flow of a variable's value. -/
structure Lib (φ V : Type) where
  kind : φ → Kind
  sem : φ → List V → Except Err V
  flowType : V → FlowType

/-- The class of a node. `CastOp` is a subclass of its target class (`generic.py` 39). -/
def kindOf (lib : Lib φ V) : Node φ V → Kind
  | .var _ _ => .var
  | .op f _ => lib.kind f
  | .cast _ k _ => k

/-- The method found under `eval_const_flags`: the one of the class, else, for a cast node,
`__getattr__` forwards to the underlying node (`generic.py` 54-56). -/
def flagMethod (lib : Lib φ V) : Node φ V → Option (List Flags → Except Err Flags)
  | .var _ _ => none
  | .op f _ => ownFlags (lib.kind f)
  | .cast _ k inner =>
    match ownFlags k with
    | some m => some m
    | none => flagMethod lib inner

/-- `node._value`, forwarded through casts. Operations with such an attribute (`Constant`) are not
used as variables and raise here. -/
def initValue : Node φ V → Except Err V
  | .var _ v => .ok v
  | .op _ _ => .error .attributeError
  | .cast _ _ inner => initValue inner

/-- The variables of a plan: name, value and frozen flag (`optplan.py` 488-490). -/
abbrev PlanVars (V : Type) := List (String × V × Bool)

/-- The entry of a variable. -/
def PlanVars.get (p : PlanVars V) (n : String) : Option (V × Bool) :=
  (p.find? fun e => e.1 = n).map Prod.snd

mutual
/-- `OptimizationPlan.add_node` (`optplan.py` 482-508): a node that is a `Variable`, by class, is
registered with its `_value` unless its name is known; then its inputs are added. The frozen flag of
a new variable is `is_param`, here `False`. Names of other nodes are assumed to be distinct from
variable names (C14). -/
def addNode (lib : Lib φ V) (p : PlanVars V) : Node φ V → Except Err (PlanVars V)
  | .var n v => .ok (if (p.get n).isSome then p else p ++ [(n, v, false)])
  | .op _ ins => addNodes lib p ins
  | .cast n k inner =>
    if k = .var then
      if (p.get n).isSome then .ok p
      else
        match initValue inner with
        | .error e => .error e
        | .ok v => addNode lib (p ++ [(n, v, false)]) inner
    else addNode lib p inner
/-- The inputs, one after the other. -/
def addNodes (lib : Lib φ V) (p : PlanVars V) : List (Node φ V) → Except Err (PlanVars V)
  | [] => .ok p
  | n :: ns =>
    match addNode lib p n with
    | .error e => .error e
    | .ok q => addNodes lib q ns
end

/-- `set_var_value` inside an action (`optplan.py` 513-522), without the frozen check. -/
def setVar (p : PlanVars V) (n : String) (v : V) : PlanVars V :=
  p.map fun e => if e.1 = n then (e.1, v, e.2.2) else e

mutual
/-- `plan.eval_node` (`optplan.py` 629-658 with `graph_executor.eval_fun`): the value and the flags
of a node. Every node that is a registered variable takes its value from the plan
(`override_map`). `frozen` selects which of the two kinds of flags is computed: a variable's
constant flag is `False`, its frozen flag is the plan's. Every input is evaluated, also below an
overridden node. Sharing of nodes affects neither values nor flags (C01, C03). -/
def evalNode (lib : Lib φ V) (frozen : Bool) (p : PlanVars V) :
    Node φ V → Except Err (V × Flags)
  | .var n _ =>
    match p.get n with
    | none => .error .keyError
    | some (v, fr) => .ok (v, .record [("array", frozen && fr)])
  | .op f ins =>
    match evalNodes lib frozen p ins with
    | .error e => .error e
    | .ok rs =>
      match lib.sem f (rs.map Prod.fst) with
      | .error e => .error e
      | .ok v =>
        match evalFlags (ownFlags (lib.kind f)) (lib.flowType v) (rs.map Prod.snd) with
        | .error e => .error e
        | .ok fl => .ok (v, fl)
  | .cast n k inner =>
    match evalNode lib frozen p inner with
    | .error e => .error e
    | .ok (v, fl) =>
      if k = .var then
        match p.get n with
        | none => .error .keyError
        | some (w, fr) => .ok (w, .record [("array", frozen && fr)])
      else
        match evalFlags (flagMethod lib (.cast n k inner)) (lib.flowType v) [fl] with
        | .error e => .error e
        | .ok fl' => .ok (v, fl')
/-- The inputs, one after the other. -/
def evalNodes (lib : Lib φ V) (frozen : Bool) (p : PlanVars V) :
    List (Node φ V) → Except Err (List (V × Flags))
  | [] => .ok []
  | n :: ns =>
    match evalNode lib frozen p n with
    | .error e => .error e
    | .ok r => (evalNodes lib frozen p ns).map (r :: ·)
end

/-- `goos.rename(node, name)` (`generic.py` 93-108): a cast to the node's own class. -/
def rename (lib : Lib φ V) (n : Node φ V) (name : String) : Node φ V :=
  .cast name (kindOf lib n) n

/-- What a user does with a plan between evaluations: creating nodes and setting variables. -/
inductive PlanOp (φ V : Type) where
  | create (n : Node φ V)
  | set (name : String) (v : V)

/-- A history of such operations. -/
def runOps (lib : Lib φ V) : List (PlanOp φ V) → PlanVars V → Except Err (PlanVars V)
  | [], p => .ok p
  | .create n :: os, p =>
    match addNode lib p n with
    | .error e => .error e
    | .ok q => runOps lib os q
  | .set n v :: os, p => runOps lib os (setVar p n v)

end Verif.Flow
