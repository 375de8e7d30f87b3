/-
Model of `Workspace`, spins/invdes/problem_graph/workspace.py: the cache of the objects made from the nodes of a plan.

Models (nodes and other schema models) are natural numbers, their identity (`id`). What does not change is in a `Graph`. A creator is
represented by the list of nodes it asks the workspace for, in order; it then returns a new object. Objects that creators keep to
themselves, and creators that change the plan, are not modelled. Recursion depth is bounded by `fuel`, as it is by Python's stack:
running out is an exception. Every function returns the new workspace also when it raises, since Python keeps it.
-/
namespace Verif.Work

/-- The name `__variable`, workspace.py 23 -/
def variableName : Nat := 0

/-- The immutable part: names, the models in each field (`true` for fields of references, which `_iter_optplan_fields` hands to
`process_field`; references given as names are not modelled), whether a creator is registered for the type, and what the creator asks
for. -/
structure Graph where
  name : Nat → Nat
  fields : Nat → List (List Nat × Bool)
  hasCreator : Nat → Bool
  deps : Nat → List Nat

/-- What `get_object` returns: the variable, the node itself (no creator), or the object made by the `k`-th completed creator. -/
inductive Obj
  | theVariable
  | self (id : Nat)
  | made (k : Nat)
deriving DecidableEq

/-- A workspace: `_nodes` and `_objects` as maps, and the nodes whose creators have completed, in order. -/
structure Ws where
  nodes : Nat → Option Nat
  objects : Nat → Option Obj
  created : List Nat

/-- `Workspace.__init__` without nodes. 53-57 -/
def Ws.init : Ws := ⟨fun _ => none, fun m => if m = variableName then some .theVariable else none, []⟩

/-- The inner `add_node`: the new workspace, and whether the node is new; `none` for the `ValueError`. 79-87 -/
def addOne (g : Graph) (ws : Ws) (id : Nat) : Ws × Option Bool :=
  match ws.nodes (g.name id) with
  | some other => if other = id then (ws, some false) else (ws, none)
  | none => ({ ws with nodes := fun m => if m = g.name id then some id else ws.nodes m }, some true)

/-- `process_field` on the references of one field: `false` if `add_node` raised. workspace.py 89-92, io.py 197-212 -/
def addRefs (g : Graph) : Ws → List Nat → Ws × Bool
  | ws, [] => (ws, true)
  | ws, child :: rest =>
    match addOne g ws child with
    | (ws, none) => (ws, false)
    | (ws, some _) => addRefs g ws rest

mutual
/-- `_iter_optplan_fields` with `process_field` as in `_add_node`: `false` if it raised. io.py 114-212, workspace.py 89-98 -/
def iterModel (g : Graph) : Nat → Ws → List Nat → Nat → Ws × List Nat × Bool
  | 0, ws, visited, _ => (ws, visited, false)
  | fuel + 1, ws, visited, id =>
    if id ∈ visited then (ws, visited, true) else iterFields g fuel ws (id :: visited) (g.fields id)

/-- The loop over the fields: first the models below, then the references themselves. io.py 171-212 -/
def iterFields (g : Graph) : Nat → Ws → List Nat → List (List Nat × Bool) → Ws × List Nat × Bool
  | 0, ws, visited, _ => (ws, visited, false)
  | _ + 1, ws, visited, [] => (ws, visited, true)
  | fuel + 1, ws, visited, (children, isRef) :: rest =>
    match iterItems g fuel ws visited children with
    | (ws, visited, false) => (ws, visited, false)
    | (ws, visited, true) =>
      if isRef then
        match addRefs g ws children with
        | (ws, false) => (ws, visited, false)
        | (ws, true) => iterFields g fuel ws visited rest
      else iterFields g fuel ws visited rest

/-- The loops over the items of a list or dictionary. io.py 176-195 -/
def iterItems (g : Graph) : Nat → Ws → List Nat → List Nat → Ws × List Nat × Bool
  | 0, ws, visited, _ => (ws, visited, false)
  | _ + 1, ws, visited, [] => (ws, visited, true)
  | fuel + 1, ws, visited, child :: rest =>
    match iterModel g fuel ws visited child with
    | (ws, visited, false) => (ws, visited, false)
    | (ws, visited, true) => iterItems g fuel ws visited rest
end

/-- `_add_node`: `false` if it raised. 70-98. (`visited` starts with the identities of the names, which are no models: empty.) -/
def addNode (g : Graph) (fuel : Nat) (ws : Ws) (id : Nat) : Ws × Bool :=
  match addOne g ws id with
  | (ws, none) => (ws, false)
  | (ws, some false) => (ws, true)
  | (ws, some true) => let r := iterModel g fuel ws [] id; (r.1, r.2.2)

mutual
/-- `get_object` with a node. 173-203 -/
def getNode (g : Graph) : Nat → Ws → Nat → Ws × Option Obj
  | 0, ws, _ => (ws, none)
  | fuel + 1, ws, id =>
    match ws.objects (g.name id) with
    | some o => (ws, some o)
    | none =>
      match addNode g fuel ws id with
      | (ws, false) => (ws, none)
      | (ws, true) =>
        if g.hasCreator id then
          match getAll g fuel ws (g.deps id) with
          | (ws, false) => (ws, none)
          | (ws, true) =>
            ({ ws with objects := fun m => if m = g.name id then some (.made ws.created.length) else ws.objects m
                       created := ws.created ++ [id] }, some (.made ws.created.length))
        else ({ ws with objects := fun m => if m = g.name id then some (.self id) else ws.objects m }, some (.self id))

/-- What a creator asks the workspace for; `false` if it raised. -/
def getAll (g : Graph) : Nat → Ws → List Nat → Ws × Bool
  | 0, ws, _ => (ws, false)
  | _ + 1, ws, [] => (ws, true)
  | fuel + 1, ws, id :: rest =>
    match getNode g fuel ws id with
    | (ws, none) => (ws, false)
    | (ws, some _) => getAll g fuel ws rest
end

/-- The argument of `get_object`. -/
inductive Request
  | name (m : Nat)
  | node (id : Nat)

/-- `get_object`. 139-203 -/
def getObject (g : Graph) (fuel : Nat) (ws : Ws) : Request → Ws × Option Obj
  | .name m => if m = variableName then (ws, ws.objects variableName) else
    match ws.nodes m with
    | none => (ws, none)
    | some id => getNode g fuel ws id
  | .node id => getNode g fuel ws id

/-- The node a request is about, in a workspace. -/
def target (ws : Ws) : Request → Option Nat
  | .name m => ws.nodes m
  | .node id => some id

/-- A history of requests: the workspace and the answers. -/
def serve (g : Graph) (fuel : Nat) : Ws → List Request → Ws × List (Option Obj)
  | ws, [] => (ws, [])
  | ws, r :: rs => let a := getObject g fuel ws r; let b := serve g fuel a.1 rs; (b.1, a.2 :: b.2)

end Verif.Work
