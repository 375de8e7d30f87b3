/-
Model of `convert_element_list`, `get_joined_monitor_description` and `get_monitor_objects`, spins/invdes/problem_graph/log_tools/monitor_spec.py: monitor descriptions joined by their id.
Names, types and operations are natural numbers; a `joiner_id` may be missing. Empty strings as `joiner_id` are not modelled.
-/
namespace Verif.Work

/-- `MonitorDescription`. 16-34 -/
structure Desc where
  joinerId : Option Nat
  monitor : Nat
  type : Nat
  scalar : Nat
  vector : Nat
deriving DecidableEq

/-- `JoinedMonitorDescription`. 37-69 -/
structure Joined where
  joinerId : Nat
  monitors : List Nat
  type : Nat
  scalar : Nat
  vector : Nat
deriving DecidableEq

/-- The entry for a new id; without an id, it gets the name of the monitor as id. 64-69, 133-138 -/
def newJoined (m : Desc) : Joined := ⟨m.joinerId.getD m.monitor, [m.monitor], m.type, m.scalar, m.vector⟩

/-- Adding a name to the entry of an id, in place. 131 -/
def addName (id : Option Nat) (name : Nat) : List (Option Nat × Joined) → List (Option Nat × Joined)
  | [] => []
  | (k, j) :: rest => if k = id then (k, { j with monitors := j.monitors ++ [name] }) :: rest else (k, j) :: addName id name rest

/-- The loop; the dictionary keeps the order of insertion; `none` for a `ValueError`. 113-138 -/
def convertLoop : List (Option Nat × Joined) → List Desc → Option (List (Option Nat × Joined))
  | dict, [] => some dict
  | dict, m :: ms =>
    match dict.find? fun x => x.1 = m.joinerId with
    | some (_, j) =>
      if ¬ m.type = j.type then none
      else if ¬ m.scalar = j.scalar then none
      else if ¬ m.vector = j.vector then none
      else convertLoop (addName m.joinerId m.monitor dict) ms
    | none => convertLoop (dict ++ [(m.joinerId, newJoined m)]) ms

/-- `convert_element_list`. 101-140 -/
def convertElementList (ms : List Desc) : Option (List Joined) := (convertLoop [] ms).map fun d => d.map (·.2)

/-- `get_joined_monitor_description`: the first entry with the id, `None` if there is none. 143-156 -/
def getJoined : List Joined → Nat → Option Joined
  | [], _ => none
  | j :: js, id => if j.joinerId = id then some j else getJoined js id

/-- `get_monitor_objects`; a missing type gives all. 81-98 -/
def getMonitors (ms : List Desc) : Option Nat → List Nat
  | some t => (ms.filter fun m => m.type = t).map (·.monitor)
  | none => ms.map (·.monitor)

end Verif.Work
