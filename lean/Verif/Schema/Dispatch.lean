import Verif.Schema.Context
/-
Which class a saved node is loaded as: `OptplanPolyModelType` and the functions that register classes.
invdes: `spins/invdes/problem_graph/optplan/optplan.py` 42-82, `optplan/__init__.py` 29-103.
goos: `spins/goos/optplan/schema_optplan.py` 120-161.

A value is a model: its class and the content of its field "type". `typeOf` is the only choice of the
field "type" of a class (`__init__.py` 50-52, 89-90). The other fields do not matter for the class and
are left out: exporting gives the type, converting a class.
-/
namespace Verif.Schema

variable {M T C F : Type} [DecidableEq M] [DecidableEq T]

/-- A model: its class and its field "type". -/
structure DValue (T C : Type) where
  cls : C
  type : T

/-- What a program can do with contexts. -/
inductive DOp (M C F : Type) where
  | create
  | push (c : Nat)
  | pop
  | register (m : M) (cls : C) (fn : F)

/-- `register_node_type` and `register_node` register a class under its own type in the context at the
top (`__init__.py` 58-59, 99-100); `peek()` is `None` if there is none, and nothing is registered. -/
def dStep (typeOf : C → T) (s : PStack M T C F) : DOp M C F → PStack M T C F × Bool
  | .create => s.step .create
  | .push c => s.step (.push c)
  | .pop => s.step .pop
  | .register m cls fn =>
    match s.stack.getLast? with
    | none => (s, true)
    | some c => s.step (.registerIn c m (typeOf cls) cls (some fn))

def dRun (typeOf : C → T) (ops : List (DOp M C F)) (s : PStack M T C F) : PStack M T C F :=
  ops.foldl (fun s op => (dStep typeOf s op).1) s

/-- `_convert`: the class the data is converted to; `none` if it raises. optplan.py 60-73 -/
def polyConvert (s : PStack M T C F) (m : M) (type : T) : Option C := s.getModel m type

/-- `_export`: the type written; `none` if it raises. optplan.py 75-81 -/
def polyExport [DecidableEq C] (s : PStack M T C F) (m : M) (v : DValue T C) : Option T :=
  if v.cls ∈ (s.getModelDict m).map Prod.snd then some v.type else none

/-- `_convert` of goos: the class registered for the type, if it is a subclass of the metatype.
schema_optplan.py 139-151 -/
def goosConvert (sub : C → M → Bool) (s : Stack T C) (m : M) (type : T) : Option C :=
  match s.getNode type with
  | none => none
  | some c => if sub c m then some c else none

/-- `_export` of goos does not look at the class. schema_optplan.py 153-160 -/
def goosExport (v : DValue T C) : Option T := some v.type

end Verif.Schema
