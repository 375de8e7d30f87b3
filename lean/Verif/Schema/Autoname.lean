import Verif.Schema.Names
/-
Model of `autoname`: spins/invdes/problem_graph/optplan/io.py 70-112.

Models are numbers. What the traversal sees of a model is whether it is a `ProblemGraphNode`, its type,
and the models found in its fields, lists and dictionaries, in order: containers are walked in order and
nothing else happens to them (104-112), so nested ones are flattened. An empty name stands for `None`.
-/
namespace Verif.Schema

/-- What `_autoname_helper` sees of a model. io.py 92-112 -/
structure AModel where
  isNode : Bool
  ty : Str
  kids : List Nat

/-- The names of all models, the counters of `generate_name`, and `visited`. -/
structure ASt where
  name : Nat → Str
  count : Counters
  visited : List Str

/-- The loops over fields, lists and dictionaries. io.py 104-112 -/
def autoKids (rec : ASt → Nat → Option ASt) : List Nat → ASt → Option ASt
  | [], s => some s
  | x :: xs, s =>
    match rec s x with
    | none => none
    | some s' => autoKids rec xs s'

/-- `if not value.name: value.name = generate_name(value.type)`. io.py 94-95 -/
def ASt.give (s : ASt) (x : Nat) (ty : Str) : ASt :=
  if s.name x = [] then
    { s with
      name := fun y => if y = x then (generateName s.count ty).1 else s.name y
      count := (generateName s.count ty).2 }
  else s

/-- `_autoname_helper`; `none` if the recursion is deeper than the fuel. io.py 83-112 -/
def autoObj (g : Nat → AModel) : Nat → ASt → Nat → Option ASt
  | 0, _, _ => none
  | n + 1, s, x =>
    if (g x).isNode then
      if (s.give x (g x).ty).name x ∈ (s.give x (g x).ty).visited then some (s.give x (g x).ty)
      else
        autoKids (autoObj g n) (g x).kids
          { s.give x (g x).ty with visited := (s.give x (g x).ty).name x :: (s.give x (g x).ty).visited }
    else autoKids (autoObj g n) (g x).kids s

/-- `autoname`. io.py 70-80 -/
def autoname (g : Nat → AModel) (fuel : Nat) (name : Nat → Str) (count : Counters) (x : Nat) : Option ASt :=
  autoObj g fuel ⟨name, count, []⟩ x

end Verif.Schema
