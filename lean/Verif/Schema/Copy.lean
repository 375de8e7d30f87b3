import Verif.Schema.Plan
/-
Copies of plans: `CopyModelMixin.__deepcopy__` (`spins/goos/optplan/schema_utils.py` 121-130 and
`spins/invdes/problem_graph/schema_utils.py` 121-130) under `copy.deepcopy`, which `dumps` calls first
(goos `schema.py` 502, invdes `io.py` 340).

`copy.deepcopy` looks an object up in the memo, else calls `__deepcopy__`, and enters the result in
the memo afterwards. Lists and dictionaries held by fields are copied with their entries; that two
fields might hold the very same list is not modelled. `type(self)()` for a node calls
`generate_name` (goos `schema_optplan.py` 57-60, invdes `optplan.py` 102-105), which counts.
-/
namespace Verif.Schema

variable {P I H : Type}

/-- The state of a deep copy. `count`: how many names were generated for each class. -/
structure CopySt (P I H : Type) where
  heap : Heap P I H
  next : Nat
  memo : List (Nat × Nat)
  count : H → Nat

/-- Copying the entries of a field. -/
def copyItems (rec : CopySt P I H → Nat → Option (Nat × CopySt P I H)) :
    List (Item P) → CopySt P I H → Option (List (Item P) × CopySt P I H)
  | [], s => some ([], s)
  | .obj y :: is, s =>
    match rec s y with
    | none => none
    | some (y', s1) =>
      match copyItems rec is s1 with
      | none => none
      | some (l, s2) => some (.obj y' :: l, s2)
  | .prim p :: is, s =>
    match copyItems rec is s with
    | none => none
    | some (l, s2) => some (.prim p :: l, s2)
  | .str t :: is, s =>
    match copyItems rec is s with
    | none => none
    | some (l, s2) => some (.str t :: l, s2)

/-- The loop over the fields (127-128). -/
def copyFields (rec : CopySt P I H → Nat → Option (Nat × CopySt P I H)) :
    List (Field P I) → CopySt P I H → Option (List (Field P I) × CopySt P I H)
  | [], s => some ([], s)
  | f :: fs, s =>
    match copyItems rec f.items s with
    | none => none
    | some (l, s1) =>
      match copyFields rec fs s1 with
      | none => none
      | some (fs', s2) => some ({ f with items := l } :: fs', s2)

open Classical in
/-- `type(self)()` (122): a new object without values; a node generates a name. -/
noncomputable def newModel (s : CopySt P I H) (o : Obj P I H) : CopySt P I H :=
  { s with
    heap := s.heap.upd s.next { o with name := [], fields := [] }
    next := s.next + 1
    count := fun t => s.count t + if o.isNode = true ∧ o.hdr = t then 1 else 0 }

/-- `copy.deepcopy` of a model; the first argument bounds the depth of the recursion. The fields are
assigned in one step: nothing reads the new object before. -/
noncomputable def copyObj : Nat → CopySt P I H → Nat → Option (Nat × CopySt P I H)
  | 0, _, _ => none
  | n + 1, s, x =>
    match s.memo.lookup x with
    | some y => some (y, s)
    | none =>
      match copyFields (copyObj n) (s.heap x).fields (newModel s (s.heap x)) with
      | none => none
      | some (fs, s2) =>
        some (s.next, { s2 with
          heap := s2.heap.upd s.next { s.heap x with fields := fs }
          memo := (x, s.next) :: s2.memo })

/-- Copying the models of a list. -/
def copyIds (rec : CopySt P I H → Nat → Option (Nat × CopySt P I H)) :
    List Nat → CopySt P I H → Option (List Nat × CopySt P I H)
  | [], s => some ([], s)
  | x :: xs, s =>
    match rec s x with
    | none => none
    | some (y, s1) =>
      match copyIds rec xs s1 with
      | none => none
      | some (l, s2) => some (y :: l, s2)

/-- `copy.deepcopy(plan)`: the plan is itself a model with these fields. -/
noncomputable def copyPlan (fuel : Nat) (s : CopySt P I H) (p : PlanObj) :
    Option (PlanObj × CopySt P I H) :=
  match copyIds (copyObj fuel) p.nodes s with
  | none => none
  | some (ns, s1) =>
    match copyIds (copyObj fuel) p.actions s1 with
    | none => none
    | some (as, s2) => some (⟨p.version, ns, as⟩, s2)

/-- `dumps` after the copy, in place: what is written, and the objects afterwards. -/
def dumpsHeap (eq : Heap P I H → Nat → Nat → Bool) (fuel : Nat) (h : Heap P I H) (p : PlanObj) :
    Option (Serialised P I H × Heap P I H) :=
  (extractList (extract eq h fuel) (p.nodes ++ p.actions) []).bind fun l =>
  (iterAll (toName eq l) fuel (p.nodes ++ p.actions) ⟨h, []⟩).bind fun s =>
  if checkNames (l.map (fun x => (s.heap x).name)) [] then
    some ({ version := p.version,
            nodes := expItems (expObj s.heap fuel) s.heap (l.map .obj),
            actions := expItems (expObj s.heap fuel) s.heap (p.actions.map .obj) }, s.heap)
  else none

/-- Saving a plan (goos 490-517, invdes 328-357): what is written, the objects afterwards, and the
counters of `generate_name`. `next`: the objects of the program are those before `next`. -/
noncomputable def save (eq : Heap P I H → Nat → Nat → Bool) (fuel : Nat) (h : Heap P I H) (next : Nat)
    (count : H → Nat) (p : PlanObj) : Option (Serialised P I H × Heap P I H × (H → Nat)) :=
  match copyPlan fuel ⟨h, next, [], count⟩ p with
  | none => none
  | some (p', s) => (dumpsHeap eq fuel s.heap p').map fun r => (r.1, r.2, s.count)

end Verif.Schema
