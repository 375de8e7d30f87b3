/-
Model of name generation, duplicate checks and version checks:
`spins/goos/optplan/schema.py` and `spins/invdes/problem_graph/optplan/io.py`.
Strings are lists of characters.
-/
namespace Verif.Schema

abbrev Str := List Char

/-- Decimal digit. -/
def digit (n : Nat) : Char := Char.ofNat (48 + n)

/-- `str(n)` for a natural number. -/
def decimal (n : Nat) : Str :=
  if n < 10 then [digit n] else decimal (n / 10) ++ [digit (n % 10)]
termination_by n
decreasing_by omega

/-- The dictionary `PROBLEM_GRAPH_NAME_MAP` (goos `optplan/__init__.py` 16) /
`problem_graph_name_map` (invdes `io.py` 14). -/
abbrev Counters := Str → Option Nat

/-- `generate_name` (goos `schema.py` 245-272, invdes `io.py` 27-55). -/
def generateName (m : Counters) (ty : Str) : Str × Counters :=
  let m1 : Counters :=
    match m ty with
    | none => fun t => if t = ty then some 0 else m t
    | some _ => m
  let n := (m1 ty).getD 0
  (ty ++ ['.'] ++ decimal n, fun t => if t = ty then some (n + 1) else m1 t)

/-- A sequence of requests. -/
def generateAll : Counters → List Str → List Str
  | _, [] => []
  | m, t :: ts => (generateName m t).1 :: generateAll (generateName m t).2 ts

/-- The creation of a node: with the name given by the user, or with a generated one
(goos `optplan.py` 89-126, `schema_optplan.py` 56-60; invdes `optplan.py` 100-105). An empty name
counts as no name. -/
inductive Create where
  | user (name : Str)
  | auto (ty : Str)

def createAll : Counters → List Create → List Str
  | _, [] => []
  | m, .user n :: cs => n :: createAll m cs
  | m, .auto t :: cs => (generateName m t).1 :: createAll (generateName m t).2 cs

/-- The loop of `validate` over the node names (goos 405-411, invdes 248-253); `false` if it
raises `ValueError`. -/
def checkNames : List Str → List Str → Bool
  | [], _ => true
  | n :: ns, seen => if n ∈ seen then false else checkNames ns (n :: seen)

/-- Result of the version checks. -/
inductive Verdict where
  | accepted | rejected | indexError
deriving DecidableEq

/-- goos `_validate_optplan_version` (444-453) on the integers between the dots. -/
def goosVersion : List Int → Verdict
  | a :: rest =>
    if a < 0 then .rejected
    else match rest with
      | b :: _ => if b < 3 then .rejected else .accepted
      | [] => .indexError
  | [] => .indexError

/-- invdes `_validate_optplan_version` (282-291). -/
def invdesVersion : List Int → Verdict
  | a :: rest =>
    if a < 0 then .rejected
    else match rest with
      | b :: rest' =>
        if b < 2 then .rejected
        else match rest' with
          | c :: _ => if c < 3 then .rejected else .accepted
          | [] => .indexError
      | [] => .indexError
  | [] => .indexError

end Verif.Schema
