import Verif.Work.Workspace

/-!
Model of `Workspace.get_objects_by_type`, spins/invdes/problem_graph/workspace.py: the objects of all nodes of one type, which is where
log entries and checkpoints get their parameters and parametrizations from.
-/
namespace Verif.Work

/-- Python raises `RuntimeError` if a dictionary has another size than when the loop over it began. Nodes are never removed from
`_nodes`, so the size is another one when there is a name that was not there. -/
def sizeChanged (keys : List Nat) (ws : Ws) : Prop := ∃ m, ws.nodes m ≠ none ∧ m ∉ keys

open Classical in
/-- The loop of `get_objects_by_type` over the rest of the names: the entries of the dictionary in order, or `none` if it raised. The
size is looked at before each step, also the one that finds the end. The names in `_nodes` are distinct, and nodes are stored
under their names, so that every entry is a new one. 220-225 -/
noncomputable def byTypeLoop (g : Graph) (fuel : Nat) (ofType : Nat → Bool) (keys : List Nat) : Ws → List Nat → Ws × Option (List (Nat × Obj))
  | ws, [] => if sizeChanged keys ws then (ws, none) else (ws, some [])
  | ws, m :: rest =>
    if sizeChanged keys ws then (ws, none) else
    match ws.nodes m with
    | none => (ws, none)
    | some id =>
      if ofType id then
        match getNode g fuel ws id with
        | (ws, none) => (ws, none)
        | (ws, some o) =>
          match byTypeLoop g fuel ofType keys ws rest with
          | (ws, none) => (ws, none)
          | (ws, some l) => (ws, some ((g.name id, o) :: l))
      else byTypeLoop g fuel ofType keys ws rest

/-- `get_objects_by_type(model_type)`; `keys` are the names in `_nodes` in the order of the dictionary, `ofType` is
`isinstance(_, model_type)`. 205-226. (`return_graph_node`, which only adds the nodes to the entries, is not modelled.) -/
noncomputable def getByType (g : Graph) (fuel : Nat) (ofType : Nat → Bool) (ws : Ws) (keys : List Nat) : Ws × Option (List (Nat × Obj)) :=
  byTypeLoop g fuel ofType keys ws keys

end Verif.Work
