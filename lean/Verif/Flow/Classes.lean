import Mathlib.Data.List.Basic
/-
Model of `spins/goos/flows.py`: what the metaclass `FlowMeta` (11-110) makes of a sequence of
class statements, and what `+=` does on the gradient objects it generates. Also the flow classes
of `flows.py` and `shapes.py` as such class statements.
-/
namespace Verif.Flow

/-- A dataclass field of a flow: its name and whether it is marked with `constant_field`
(`flows.py` 124-140). Defaults and types play no part below. -/
structure Field where
  name : String
  const : Bool
deriving DecidableEq, Repr

/-- What is recorded for a flow class `C` and its `C.Grad`. Classes are numbered in the order in
which they are defined; `mro` starts with the class itself. `adds` are the fields that the
`__iadd__` of `C.Grad` itself (without the `super` call) adds. -/
structure FlowClass where
  name : String
  mro : List Nat
  fields : List Field
  adds : List String
deriving DecidableEq, Repr

/-- A statement `class name(bases): own fields`. `grad` is `some fs` when the body defines its own
`Grad` whose `__iadd__` adds the fields `fs` and then calls `super().__iadd__(value)`
(`NumericFlow.Grad`, `flows.py` 196-203; `Flow.Grad`, 144-147, adds nothing and has no `super`).
A hand-written `Grad` is assumed to inherit from the `Grad` of the bases, as both of these do. -/
structure ClassStmt where
  name : String
  bases : List Nat
  own : List Field
  grad : Option (List String)
deriving DecidableEq, Repr

/-! ### Python's method resolution order -/

/-- A head may be taken when it is in the tail of no list (C3 linearisation, `type.__new__` at
`flows.py` 53 and `make_dataclass(..., bases=grad_bases)` at 89-92). -/
def goodHead (seqs : List (List Nat)) (h : Nat) : Bool :=
  seqs.all fun s => !(s.tail.contains h)

/-- The first head that may be taken. -/
def c3Pick (seqs : List (List Nat)) : Option Nat :=
  (seqs.filterMap List.head?).find? (goodHead seqs)

/-- Removes `h` from the front of a list. -/
def dropHead (h : Nat) (s : List Nat) : List Nat :=
  if s.head? = some h then s.tail else s

/-- The merge of C3. `none`: no consistent order (`TypeError`). The first argument bounds the
number of steps; the total length of the lists, plus one, is enough. -/
def c3Merge : Nat → List (List Nat) → Option (List Nat)
  | 0, _ => none
  | n + 1, seqs =>
    let rest := seqs.filter (· ≠ [])
    if rest = [] then some []
    else
      match c3Pick rest with
      | none => none
      | some h => (c3Merge n (rest.map (dropHead h))).map (h :: ·)

/-! ### The metaclass -/

/-- `fields[f.name] = f` on an ordered dictionary (the dataclass machinery). -/
def putField (f : Field) : List Field → List Field
  | [] => [f]
  | g :: gs => if g.name = f.name then f :: gs else g :: putField f gs

/-- `fields.update(...)`. -/
def putFields (fs acc : List Field) : List Field := fs.foldl (fun a f => putField f a) acc

/-- `dataclasses.fields(cls)` (`flows.py` 57): the fields of the bases in reverse resolution order,
then the fields of the class body, later ones replacing earlier ones of the same name. -/
def fieldsOf (env : List FlowClass) (mroTail : List Nat) (own : List Field) : List Field :=
  putFields own
    (mroTail.reverse.foldl
      (fun acc b => putFields ((env[b]?.map FlowClass.fields).getD []) acc) [])

/-- `nonconst_fields` (`flows.py` 58-64). -/
def nonconst (fs : List Field) : List String :=
  (fs.filter fun f => !f.const).map Field.name

/-- `FlowMeta.__new__` (`flows.py` 53-110). `none`: a base is not defined yet, or the bases have no
consistent resolution order. The automatically generated `Grad` adds *every* non-constant field of
the class, inherited ones included (`grad_fields`, 86-88), and then calls
`super(cls.Grad, self).__iadd__(value)` (106). `Grad` classes mirror the flow classes
(`grad_bases`, 89), so they have the same resolution order. -/
def define (env : List FlowClass) (s : ClassStmt) : Option (List FlowClass) :=
  if s.bases.all (fun b => b < env.length) then
    let lists := s.bases.map (fun b => (env[b]?.map FlowClass.mro).getD []) ++ [s.bases]
    match c3Merge ((lists.map List.length).sum + 1) lists with
    | none => none
    | some tl =>
      let fs := fieldsOf env tl s.own
      some (env ++ [⟨s.name, env.length :: tl, fs, s.grad.getD (nonconst fs)⟩])
  else none

/-- A module: class statements one after the other. -/
def defineAll : List ClassStmt → List FlowClass → Option (List FlowClass)
  | [], env => some env
  | s :: ss, env => (define env s).bind (defineAll ss)

/-! ### Gradient objects -/

/-- The value of a gradient field: a number, or an array (flattened). -/
inductive Val (K : Type) where
  | num (x : K)
  | arr (xs : List K)
deriving Repr

/-- Python exceptions that occur below. -/
inductive Err where
  | attributeError
  | valueError
  | indexError
  | typeError
  | keyError
deriving DecidableEq, Repr

variable {K : Type}

/-- One field of `__iadd__` (`flows.py` 98-104, and 202): arrays are added in place, with numpy's
broadcasting of a one-element right-hand side; numbers have no `__iadd__` and are replaced. An
array cannot grow in place: `ValueError`. -/
def iaddVal [Add K] : Val K → Val K → Except Err (Val K)
  | .num a, .num b => .ok (.num (b + a))
  | .num a, .arr bs => .ok (.arr (bs.map (· + a)))
  | .arr as, .num b => .ok (.arr (as.map (· + b)))
  | .arr as, .arr bs =>
    if as.length = bs.length then .ok (.arr (List.zipWith (· + ·) as bs))
    else
      match bs with
      | [b] => .ok (.arr (as.map (· + b)))
      | _ => .error .valueError

/-- A gradient object: the attribute `f_grad` under the name `f`. -/
abbrev Obj (K : Type) := String → Option (Val K)

/-- `setattr`. -/
def setField (o : Obj K) (f : String) (v : Val K) : Obj K := fun g => if g = f then some v else o g

/-- The loop over `grad_fields` (`flows.py` 95-104). -/
def iaddFields [Add K] (value : Obj K) : List String → Obj K → Except Err (Obj K)
  | [], o => .ok o
  | f :: fs, o =>
    match o f, value f with
    | some a, some b =>
      match iaddVal a b with
      | .ok v => iaddFields value fs (setField o f v)
      | .error e => .error e
    | _, _ => .error .attributeError

/-- `__iadd__` along the chain of `super` calls (`flows.py` 94-108). -/
def iaddMro [Add K] (env : List FlowClass) (value : Obj K) : List Nat → Obj K →
    Except Err (Obj K)
  | [], o => .ok o
  | k :: ks, o =>
    match iaddFields value ((env[k]?.map FlowClass.adds).getD []) o with
    | .ok o' => iaddMro env value ks o'
    | .error e => .error e

/-- `g += value` for a gradient object `g` of class `c`. -/
def gradIadd [Add K] (env : List FlowClass) (c : Nat) (o value : Obj K) : Except Err (Obj K) :=
  iaddMro env value ((env[c]?.map FlowClass.mro).getD []) o

/-- `_update_grad_vals` (`goos/graph_executor.py` 306-312) for one node with several consumers: the
first gradient is stored, the others are added with `+=`. -/
def accumulate [Add K] (env : List FlowClass) (c : Nat) : Obj K → List (Obj K) →
    Except Err (Obj K)
  | o, [] => .ok o
  | o, v :: vs =>
    match gradIadd env c o v with
    | .ok o' => accumulate env c o' vs
    | .error e => .error e

/-- `C.Grad()`: every field is `np.zeros(1)` (`flows.py` 86-88). -/
def defaultGrad [Zero K] (env : List FlowClass) (c : Nat) : Obj K := fun f =>
  if f ∈ nonconst ((env[c]?.map FlowClass.fields).getD []) then some (.arr [0]) else none

/-! ### The flow classes of the library -/

/-- `Flow` (142-186), `NumericFlow` (188-225) of `flows.py`; `ShapeFlow` (10-14), `CuboidFlow`
(24-31), `CylinderFlow` (87-97), `SphereFlow` (138-146), `PixelatedContShapeFlow` (183-204) of
`shapes.py`. `ArrayFlow` has no dataclass fields and is modelled in `Verif.Flow.Array`. -/
def goosStmts : List ClassStmt :=
  [ ⟨"Flow", [], [], some []⟩,
    ⟨"NumericFlow", [0], [⟨"array", false⟩], some ["array"]⟩,
    ⟨"ShapeFlow", [0],
      [⟨"pos", false⟩, ⟨"rot", false⟩, ⟨"priority", true⟩, ⟨"material", true⟩], none⟩,
    ⟨"CuboidFlow", [2], [⟨"extents", false⟩], none⟩,
    ⟨"CylinderFlow", [2], [⟨"radius", false⟩, ⟨"height", false⟩, ⟨"num_points", false⟩], none⟩,
    ⟨"SphereFlow", [2], [⟨"radius", false⟩, ⟨"num_points", false⟩], none⟩,
    ⟨"PixelatedContShapeFlow", [2, 1],
      [⟨"material2", true⟩, ⟨"extents", false⟩, ⟨"pixel_size", true⟩], none⟩ ]

/-- The classes after importing the library. -/
def goosEnv : List FlowClass := (defineAll goosStmts []).getD []

end Verif.Flow
